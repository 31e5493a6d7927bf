import Mathlib.Data.List.Basic

/-!
# The loggers of `tensorD/base/logger.py`

The module configures Python's `logging` from `tensorD/conf/logging_config.ini` when it is imported and has one function,
`create_logger`.  `State` is the part of Python's `logging` it acts on (trusted: the behaviour of `logging.getLogger`,
`Logger.isEnabledFor`, `Logger.callHandlers` and `logging.config.fileConfig` as in CPython 3.4-3.8).

A name is the list of its components (`"a.b"` is `["a", "b"]`), the root logger is `[]`.  Not modelled: filters, `logging.disable`,
handlers being closed by `fileConfig`, the text that a handler writes.
-/
namespace TD.logging

abbrev Name := List String

/-- `logging.DEBUG`, `logging.WARNING` and `logging.ERROR`. -/
def DEBUG : Nat := 10
def WARNING : Nat := 30
def ERROR : Nat := 40

/-- A handler: its level and the stream it writes to. -/
structure Handler where
  level : Nat
  stream : String
deriving DecidableEq

/-- The attributes of a `logging.Logger`; level 0 is `NOTSET`. -/
structure Logger where
  level : Nat
  handlers : List Handler
  propagate : Bool
  disabled : Bool
deriving DecidableEq

/-- What `Logger.__init__` sets. -/
def Logger.new : Logger := ⟨0, [], true, false⟩

/-- The root logger and `root.manager.loggerDict` without place holders. -/
structure State where
  root : Logger
  named : Name → Option Logger

def State.get (s : State) (n : Name) : Option Logger := if n = [] then some s.root else s.named n

def State.set (s : State) (n : Name) (l : Logger) : State :=
  if n = [] then { s with root := l } else { s with named := Function.update s.named n (some l) }

/-- `logging.getLogger`: creates the logger if there is none of this name. -/
def getLogger (s : State) (n : Name) : State :=
  match s.get n with
  | some _ => s
  | none => s.set n Logger.new

/-- A logger and the existing loggers above it, nearest first (`Logger.parent` repeatedly). -/
def chain (s : State) (n : Name) : List Logger := n.inits.reverse.filterMap s.get

/-- `Logger.getEffectiveLevel`. -/
def effectiveLevel : List Logger → Nat
  | [] => 0
  | l :: ls => if l.level ≠ 0 then l.level else effectiveLevel ls

/-- The handlers `Logger.callHandlers` goes through. -/
def handlersOf : List Logger → List Handler
  | [] => []
  | l :: ls => l.handlers ++ if l.propagate then handlersOf ls else []

/-- `Logger.log` with a message of level `v`: the streams it is written to, once for each entry.  Without any handler the
message goes to `logging.lastResort`. -/
def emit (s : State) (n : Name) (v : Nat) : List String :=
  match s.get n with
  | none => []
  | some l =>
    if l.disabled = true ∨ v < effectiveLevel (chain s n) then []
    else match handlersOf (chain s n) with
      | [] => if WARNING ≤ v then ["stderr"] else []
      | hs => (hs.filter fun h => h.level ≤ v).map Handler.stream

/-- `logger.py:8-9`: importing the module runs `fileConfig` on `conf/logging_config.ini:1-47`, with
`disable_existing_loggers` left at its default `True`. -/
def fileConfig (s : State) : State where
  root := { s.root with level := DEBUG, handlers := [⟨DEBUG, "stderr"⟩] }
  named n :=
    if n = ["DEBUG"] then some ⟨DEBUG, [⟨DEBUG, "stdout"⟩], false, false⟩
    else if n = ["RELEASE"] then some ⟨ERROR, [⟨DEBUG, "stdout"⟩], false, false⟩
    else (s.named n).map fun l =>
      if n.head? = some "DEBUG" ∨ n.head? = some "RELEASE" then { l with level := 0, handlers := [], propagate := true }
      else { l with disabled := true }

/-- `logger.py:12-27` `create_logger`; `None` and the empty text name the root logger. -/
def createLogger (s : State) (n : Name) : State :=
  let s' := getLogger s n
  match s'.get n with
  | some l => s'.set n { l with level := ERROR }
  | none => s'

/-- What a program does after importing the module: `create_logger(n)` or `logging.getLogger(n)`. -/
inductive Op
  | create (n : Name)
  | get (n : Name)
deriving DecidableEq

def step (s : State) : Op → State
  | .create n => createLogger s n
  | .get n => getLogger s n

/-- A program that starts in state `s` (with the loggers it already has), imports the module and performs `ops`. -/
def run (s : State) (ops : List Op) : State := ops.foldl step (fileConfig s)

end TD.logging
