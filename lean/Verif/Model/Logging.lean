import Verif.Model.Py

/-!
# Model of `fides/logging.py`

The global counter `logger_count` and Python's logger registry: `logging.getLogger(name)` returns the existing
logger of that name or creates one; `addHandler` appends a handler to it (a new `StreamHandler` each time).
-/

namespace Fides

/-- global state: `logger_count` and, for each logger name `fides_<k>`, its number of handlers and level -/
structure LogWorld where
  count : Nat
  handlers : Nat → Nat
  level : Nat → Int

/-- state at import (logging.py:13) of a process in which nobody else uses these logger names -/
def LogWorld.init : LogWorld := { count := 0, handlers := fun _ => 0, level := fun _ => 0 }

/-- `create_logger(level)` executed without interruption (logging.py:16-40); returns the number in the logger's name -/
def createLogger (w : LogWorld) (lvl : Int) : Nat × LogWorld :=
  let c := w.count + 1                                                                 -- 28
  (c, { count := c,
        handlers := fun k => if k = c then w.handlers k + 1 else w.handlers k,          -- 31-38
        level := fun k => if k = c then lvl else w.level k })                           -- 39

/-- a thread inside `create_logger`: the statements that touch shared state (bytecode granularity) -/
inductive LogThread where
  /-- about to read `logger_count` (first half of line 28) -/
  | start
  /-- has read the counter, about to write it back (second half of line 28) -/
  | readCount (v : Nat)
  /-- about to read the counter for the name (line 31) -/
  | written
  /-- holds logger number `k`, about to call `addHandler` (line 38) -/
  | named (k : Nat)
  /-- returned logger number `k` -/
  | done (k : Nat)
  deriving DecidableEq, Repr

/-- one atomic step of one thread -/
def logThreadStep (w : LogWorld) : LogThread → LogWorld × LogThread
  | .start => (w, .readCount w.count)
  | .readCount v => ({ w with count := v + 1 }, .written)
  | .written => (w, .named w.count)
  | .named k => ({ w with handlers := fun j => if j = k then w.handlers j + 1 else w.handlers j }, .done k)
  | .done k => (w, .done k)

/-- run a schedule: a list of thread indices, each executing one atomic step -/
def runSchedule : LogWorld → (Nat → LogThread) → List Nat → LogWorld × (Nat → LogThread)
  | w, ts, [] => (w, ts)
  | w, ts, i :: rest =>
    let (w', t') := logThreadStep w (ts i)
    runSchedule w' (fun j => if j = i then t' else ts j) rest

/-- `n` sequential calls; the list of logger numbers returned, in order -/
def createLoggers (w : LogWorld) : List Int → List Nat × LogWorld
  | [] => ([], w)
  | l :: ls =>
    let (k, w') := createLogger w l
    let (ks, w'') := createLoggers w' ls
    (k :: ks, w'')

end Fides
