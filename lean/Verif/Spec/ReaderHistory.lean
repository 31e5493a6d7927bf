import Verif.Model.Reader
import Verif.Spec.Coord

/-!
# Histories of a `TensorReader` while files change
-/
namespace TD.Spec
open TD TD.reader

/-- The files that exist, with their contents. -/
abbrev Files := List Char → Option (List Char)

/-- What happens: a file is written or removed (by anyone), or the user calls `read(full_shape)`. -/
inductive ReaderStep
  | write (path content : List Char)
  | remove (path : List Char)
  | read (fullShape : Option (List Nat))

/-- The files after a step. -/
def filesAfter (fs : Files) : ReaderStep → Files
  | .write p c => fun q => if q = p then some c else fs q
  | .remove p => fun q => if q = p then none else fs q
  | .read _ => fs

/-- The history on one object: the files, the object, and what each `read` raised (`none`: nothing). -/
def runReader {α : Type} (pyFloat : List Char → Option α) :
    Files → TensorReader α → List ReaderStep → Files × TensorReader α × List (Option PyErr)
  | fs, r, [] => (fs, r, [])
  | fs, r, .read sh :: steps =>
    let a := r.read pyFloat fs sh
    let b := runReader pyFloat fs a.1 steps
    (b.1, b.2.1, a.2 :: b.2.2)
  | fs, r, .write p c :: steps => runReader pyFloat (filesAfter fs (.write p c)) r steps
  | fs, r, .remove p :: steps => runReader pyFloat (filesAfter fs (.remove p)) r steps

/-- What the calls of `read` in the history find: the contents of the file at that moment and the shape given. -/
def attempts (path : List Char) : Files → List ReaderStep → List (Option (List Char) × Option (List Nat))
  | _, [] => []
  | fs, .read sh :: steps => (fs path, sh) :: attempts path fs steps
  | fs, .write p c :: steps => attempts path (filesAfter fs (.write p c)) steps
  | fs, .remove p :: steps => attempts path (filesAfter fs (.remove p)) steps

end TD.Spec
