import Mathlib.Data.NNRat.Floor
import Mathlib.Logic.Function.Basic
import Verif.Model.Reader

/-!
# The experiment scripts (`ex/cp_ex.py`, `ex/ncp_ex.py`, `ex/tucker_ex.py`, `ex/ntucker_ex.py`, `ex/*.sh`)

A script reads six integers from the command line, trains and writes the history to a text file, one line
`'%.10f, %.10f\n'` per step.  The shell scripts call them in loops.  The training is an argument of the model: a history
or an exception.  Files are a map from names to contents; that the directory exists and that the process may write there is
assumed.  Printing and the summary directory are not modelled.
-/
namespace TD.ex
open TD reader

/-- A Python float: not a number, an infinity, or a finite value given by sign and magnitude
(the entries of `hist`, `cp_ex.py:33-36`). -/
inductive PyFloat where
  | nan
  | inf (neg : Bool)
  | fin (neg : Bool) (mag : ℚ≥0)
  deriving DecidableEq

/-- Nearest natural number, ties to even (the rounding of `%f` in `cp_ex.py:36`, which is exact on the binary value). -/
def roundEven (q : ℚ≥0) : Nat :=
  let n := ⌊q⌋₊
  if 2 * q < 2 * n + 1 then n else if 2 * n + 1 < 2 * q then n + 1 else if n % 2 = 0 then n else n + 1

/-- A minus sign or nothing (part of `%f` and `%d`, `cp_ex.py:31,36`). -/
def sign (neg : Bool) : List Char := if neg then ['-'] else []

/-- `'%.10f' % x` (`cp_ex.py:36`): the integer part, a point, ten digits. -/
def fmt10 : PyFloat → List Char
  | .nan => ['n', 'a', 'n']
  | .inf neg => sign neg ++ ['i', 'n', 'f']
  | .fin neg m =>
    let k := roundEven (m * 10 ^ 10)
    let f := Nat.toDigits 10 (k % 10 ^ 10)
    sign neg ++ Nat.toDigits 10 (k / 10 ^ 10) ++ '.' :: (List.replicate (10 - f.length) '0' ++ f)

/-- `'%.10f, %.10f\n' % (loss, rel_res)` (`cp_ex.py:36`, `ncp_ex.py:33`, `tucker_ex.py:32`, `ntucker_ex.py:33`). -/
def line (p : PyFloat × PyFloat) : List Char := fmt10 p.1 ++ [',', ' '] ++ fmt10 p.2 ++ ['\n']

/-- What the loop over the history writes (`cp_ex.py:33-36`). -/
def report (hist : List (PyFloat × PyFloat)) : List Char := hist.flatMap line

/-- The four scripts (`cp_ex.py:19`, `ncp_ex.py:19`, `tucker_ex.py:19`, `ntucker_ex.py:19`). -/
inductive Alg where
  | cp | ncp | tucker | ntucker
  deriving DecidableEq

/-- The arguments of a script (`cp_ex.py:40-45`). -/
structure Job where
  alg : Alg
  n1 : Int
  n2 : Int
  n3 : Int
  gR : Int
  dR : Int
  time : Int
  deriving DecidableEq

/-- `str(z)` (`cp_ex.py:30-31`). -/
def intText (z : Int) : List Char := sign (decide (z < 0)) ++ Nat.toDigits 10 z.natAbs

/-- The directory and the first part of the file name (`cp_ex.py:31`, `ncp_ex.py:28`, `tucker_ex.py:27`,
`ntucker_ex.py:28`). -/
def filePrefix : Alg → List Char
  | .cp => "/root/tensorD_f/data_out_tmp/python_out/cp_".toList
  | .ncp => "/root/tensorD_f/data_out_tmp/python_out/ncp_".toList
  | .tucker => "/root/tensorD_f/data_out_tmp/python_out/tucker_".toList
  | .ntucker => "/root/tensorD_f/data_out_tmp/python_out/ntucker_".toList

/-- `out_path` (`cp_ex.py:30-31`). -/
def outPath (j : Job) : List Char :=
  filePrefix j.alg ++ intText j.n1 ++ '_' :: (intText j.gR ++ '_' :: (intText j.dR ++ '_' :: (intText j.time ++
    ['.', 't', 'x', 't'])))

/-- `int(sys.argv[k])` for one argument (`cp_ex.py:40-45`). -/
def argInt (argv : List (List Char)) (k : Nat) : Res Int :=
  match argv[k]? with
  | none => .error .indexError
  | some s =>
    match pyInt s with
    | none => .error .valueError
    | some z => .ok z

/-- The main part of a script: `argv[0]` is its name (`cp_ex.py:39-45`). -/
def jobOf (alg : Alg) (argv : List (List Char)) : Res Job := do
  let n1 ← argInt argv 1
  let n2 ← argInt argv 2
  let n3 ← argInt argv 3
  let gR ← argInt argv 4
  let dR ← argInt argv 5
  let time ← argInt argv 6
  return ⟨alg, n1, n2, n3, gR, dR, time⟩

/-- Contents of the files (`cp_ex.py:32`). -/
abbrev Files := List Char → Option (List Char)

/-- `cp_run` from the training on (`cp_ex.py:29-36`): a training that raises ends the script before the file is opened. -/
def run (j : Job) (trained : Res (List (PyFloat × PyFloat))) (fs : Files) : Files × Res Unit :=
  match trained with
  | .error e => (fs, .error e)
  | .ok hist => (Function.update fs (outPath j) (some (report hist)), .ok ())

/-- The files if the process is killed: before `open(out_path, 'w')`, or after the first `n` characters have reached the
file (`open` with mode `w` empties it) (`cp_ex.py:32-36`). -/
def killed (j : Job) (hist : List (PyFloat × PyFloat)) (fs : Files) : Option Nat → Files
  | none => fs
  | some n => Function.update fs (outPath j) (some ((report hist).take n))

/-- Several scripts, one after the other (`ex_20_shell.sh:13-14`). -/
def runs (rs : List (Job × Res (List (PyFloat × PyFloat)))) (fs : Files) : Files :=
  rs.foldl (fun fs r => (run r.1 r.2 fs).1) fs

/-! ### The shell scripts -/

/-- `while [ "$x" != b ]; do ...; x=$((f x)); done`: the values of `x` at the beginning of the body; `none`: not finished
after `fuel` rounds (`ex_20_shell.sh:11-15`). -/
def whileNe (f : Int → Int) (b : Int) : Nat → Int → Option (List Int)
  | 0, x => if x = b then some [] else none
  | fuel + 1, x => if x = b then some [] else (whileNe f b fuel (f x)).map (x :: ·)

/-- `run_cp_ex N1 N2 N3 gR dR` and so on (`ex_20_shell.sh:4-58`, `ex_no_noise.sh:4-46`): `time` counts up to `last` and is
increased before the script is called.  The functions assign the global variables `gR` and `dR` the values they have
already. -/
def repeats (fuel : Nat) (alg : Alg) (last n gR dR : Int) : Option (List Job) :=
  (whileNe (· + 1) last fuel 0).map fun ts => ts.map fun t => ⟨alg, n, n, n, gR, dR, t + 1⟩

/-- The body of the loops over `dR` (`ex_20_shell.sh:67-70`, `:78-81`). -/
def body20 (fuel : Nat) (n gR dR : Int) : Option (List Job) := do
  let a ← repeats fuel .cp 20 n gR dR
  let b ← repeats fuel .ncp 20 n gR dR
  let c ← repeats fuel .tucker 20 n gR dR
  let d ← repeats fuel .ntucker 21 n gR dR
  return a ++ b ++ c ++ d

/-- One loop over `dR` (`ex_20_shell.sh:63-72`, `:74-83`). -/
def loopR (fuel : Nat) (n gR first stop : Int) : Option (List Job) := do
  let ds ← whileNe (· + 1) stop fuel first
  let js ← ds.mapM (body20 fuel n gR)
  return js.flatten

/-- `ex_20_shell.sh:60-86`: all calls, in order. -/
def shell20 (fuel : Nat) : Option (List Job) := do
  let ns ← whileNe (· * 2) 160 fuel 20
  let js ← ns.mapM fun n => do
    let a ← loopR fuel n 10 5 16
    let b ← loopR fuel n 20 15 26
    return a ++ b
  return js.flatten

/-- The calls of one size and rank in `ex_no_noise.sh:53-64`. -/
def bodyNoNoise (fuel : Nat) (n r : Int) : Option (List Job) := do
  let a ← repeats fuel .cp 10 n r r
  let b ← repeats fuel .ncp 10 n r r
  let c ← repeats fuel .ntucker 10 n r r
  return a ++ b ++ c

/-- `ex_no_noise.sh:50-67`: all calls, in order. -/
def shellNoNoise (fuel : Nat) : Option (List Job) := do
  let ns ← whileNe (· * 2) 160 fuel 20
  let js ← ns.mapM fun n => do
    let a ← bodyNoNoise fuel n 10
    let b ← bodyNoNoise fuel n 20
    return a ++ b
  return js.flatten

/-- One loop over `dR` in `ex_20_shell2.sh:24-28`, `:35-39`, `:44-48`, `:56-60`, `:65-69`: only `tucker_ex.py` is called
(`ex_20_shell2.sh:5-17`). -/
def loopTucker (fuel : Nat) (n gR first step stop : Int) : Option (List Job) := do
  let ds ← whileNe (· + step) stop fuel first
  let js ← ds.mapM (repeats fuel .tucker 20 n gR)
  return js.flatten

/-- `ex_20_shell2.sh:20-69`: all calls, in order. -/
def shell20b (fuel : Nat) : Option (List Job) := do
  let a ← loopTucker fuel 20 10 16 1 21
  let b ← loopTucker fuel 40 10 16 2 42
  let c ← loopTucker fuel 40 20 26 2 42
  let d ← loopTucker fuel 80 10 20 5 85
  let e ← loopTucker fuel 80 20 30 5 85
  return a ++ b ++ c ++ d ++ e

end TD.ex
