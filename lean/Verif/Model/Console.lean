import Verif.Model.Train
import Verif.Model.Experiment

/-!
# What a training prints (`cp.py`, `ncp.py`, `tucker.py`, `ntucker.py`)

`train` of `Model/Train.lean` once more, with the text written by its `print` calls and with the local variables `step` and
`loss_v` that the last `print` reads.  The numbers are Python floats.  Standard output is a text that only grows; that a
`print` itself fails is not modelled.
-/
namespace TD.fact
open TD ex

/-- The local variables of `train` that only its `print` calls read, and the text printed so far (`cp.py:145-175`). -/
structure Con where
  text : List Char
  step : Option Int := none
  lossV : Option PyFloat := none

/-- How the messages of a class begin (`cp.py:145,175`, `ncp.py:196,235`, `tucker.py:225,253`, `ntucker.py:230,267`). -/
def conName : Alg → List Char
  | .cp => "CP".toList
  | .ncp => "Non-Negative CP".toList
  | .tucker => "HOOI".toList
  | .ntucker => "Non-Negative Tucker".toList

/-- `print('CP model initial finish')` (`cp.py:145`, `ncp.py:196`, `tucker.py:225`, `ntucker.py:230`). -/
def initLine (a : Alg) : List Char := conName a ++ " model initial finish".toList ++ ['\n']

/-- `print('step=%d, RMSE=%.10f, relerr=%.10f' % (step, loss_v, rel_res))` (`cp.py:156`, `ncp.py:208`, `tucker.py:235`,
`ntucker.py:243`). -/
def stepLine (step : Int) (p : PyFloat × PyFloat) : List Char :=
  "step=".toList ++ intText step ++ ", RMSE=".toList ++ fmt10 p.1 ++ ", relerr=".toList ++ fmt10 p.2 ++ ['\n']

/-- `print('CP model train finish, in %d steps, with RMSE = %.10f' % (step, loss_v))` (`cp.py:175`, `ncp.py:235`,
`tucker.py:253`, `ntucker.py:267`). -/
def finishLine (a : Alg) (step : Int) (loss : PyFloat) : List Char :=
  conName a ++ " model train finish, in ".toList ++ intText step ++ " steps, with RMSE = ".toList ++ fmt10 loss ++ ['\n']

variable {S F K X : Type}

/-- The body of the `for` loop with its `print` (`cp.py:147-172`, `tucker.py:226-251`, `ncp.py:198-231`,
`ntucker.py:232-265`). -/
def bodySays (A : Arith PyFloat) (c : Cls S F K X PyFloat) (args : Args PyFloat) (steps step : Int)
    (l : Loc S F K X PyFloat) (k : Con) : Loc S F K X PyFloat × Con × Res Bool :=
  let k := { k with step := some step }
  match coreRun c l with
  | (l, some e) => (l, k, .error e)
  | (l, none) =>
    match reported args steps step with
    | .error e => (l, k, .error e)
    | .ok rep =>
      match mainRun c rep step l with
      | .error e => (l, k, .error e)
      | .ok (l, o) =>
        let k := { k with
          lossV := some o.loss
          text := if rep then k.text ++ stepLine step (o.loss, o.rel) else k.text }
        match judge A args.tol step l o with
        | .error e => (l, k, .error e)
        | .ok (l, _, true) => (l, k, .ok true)
        | .ok (l, obj0, false) =>
          match after A c o obj0 l with
          | (l, some e) => (l, k, .error e)
          | (l, none) => (l, k, .ok false)

/-- The `for` loop (`cp.py:147`). -/
def loopSays (A : Arith PyFloat) (c : Cls S F K X PyFloat) (args : Args PyFloat) (steps : Int) :
    Nat → Int → Loc S F K X PyFloat → Con → Loc S F K X PyFloat × Con × Option PyErr
  | 0, _, l, k => (l, k, none)
  | n + 1, step, l, k =>
    match bodySays A c args steps step l k with
    | (l, k, .error e) => (l, k, some e)
    | (l, k, .ok true) => (l, k, none)
    | (l, k, .ok false) => loopSays A c args steps n (step + 1) l k

/-- `train(steps)` with what it prints (`cp.py:124-177`, `tucker.py:207-255`, `ncp.py:172-237`, `ntucker.py:204-269`): the
object, the reported steps, the history or exception, and the text.  The last `print` raises if `step` or `loss_v` has no
value. -/
def trainSays (a : Alg) (A : Arith PyFloat) (c : Cls S F K X PyFloat) (args : Args PyFloat) (steps : Int) (fresh : Res S)
    (self : Self F K X) : (Self F K X × List Int × Res (List (PyFloat × PyFloat))) × List Char :=
  let self := if c.resets then { self with finish := false } else self
  match fresh with
  | .error e => ((self, [], .error e), [])
  | .ok s =>
    match loopSays A c args steps steps.toNat 1 { sess := s, self := self } { text := initLine a } with
    | (l, k, some e) => ((l.self, l.events, .error e), k.text)
    | (l, k, none) =>
      let self := match c.lambdasAfter with
        | some v => { l.self with aux := some v }
        | none => l.self
      match k.step, k.lossV with
      | some st, some v => (({ self with finish := true }, l.events, .ok l.hist), k.text ++ finishLine a st v)
      | _, _ => ((self, l.events, .error .unboundLocal), k.text)

/-- `'%f' % x` (`tucker.py:84`): the integer part, a point, six digits. -/
def fmt6 : PyFloat → List Char
  | .nan => ['n', 'a', 'n']
  | .inf neg => sign neg ++ ['i', 'n', 'f']
  | .fin neg m =>
    let k := roundEven (m * 10 ^ 6)
    let f := Nat.toDigits 10 (k % 10 ^ 6)
    sign neg ++ Nat.toDigits 10 (k / 10 ^ 6) ++ '.' :: (List.replicate (6 - f.length) '0' ++ f)

/-- `HOSVD.train` with what it prints (`tucker.py:56-85`); the run also fetches the loss. -/
def hosvdSays (run : S → Res ((F × K × X) × PyFloat)) (fresh : Res S) (self : Self F K X) :
    (Self F K X × Res Unit) × List Char :=
  let self := { self with finish := false }
  match fresh with
  | .error e => ((self, .error e), [])
  | .ok s =>
    let text := "HOSVD model initial finish\n".toList
    match run s with
    | .error e => ((self, .error e), text)
    | .ok ((f, k, x), v) =>
      (({ full := some x, factors := some f, aux := some k, finish := true }, .ok ()),
        text ++ "HOSVD model train finish, with RMSE = ".toList ++ fmt6 v ++ ['\n'])

end TD.fact
