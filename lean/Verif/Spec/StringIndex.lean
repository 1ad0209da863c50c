import Verif.Model.StringIndex

/-! # Specification of string index histories

Only the alphabet `SOp` of calls is shared with the model. -/
namespace Verif.Spec

/-- The readable lines. -/
def readable (ls : List (Option Text)) : List Text := ls.filterMap fun l => l

/-- The texts a call adds (a parallel load panics, adding nothing, if a line is unreadable). -/
def added : SOp → List Text
  | .insert t => [t]
  | .loadFromLines ls => readable ls
  | .loadFromFile none => []
  | .loadFromFile (some ls) => readable ls
  | .loadFromFileParallel none _ _ => []
  | .loadFromFileParallel (some ls) _ _ => if ls.all Option.isSome then readable ls else []

/-- All texts added by a history, in order. -/
def texts (ops : List SOp) : List Text := ops.flatMap added

/-- Line-by-line calls. -/
def SOp.sequential : SOp → Bool
  | .loadFromFileParallel _ _ _ => false
  | _ => true

/-- What is really left: a parallel load of at least one line drops the last text if it was added
line by line. The flag says whether the last text was added line by line. -/
def survive (s : List Text × Bool) (op : SOp) : List Text × Bool :=
  if added op = [] then s
  else if SOp.sequential op then (s.1 ++ added op, true)
  else ((if s.2 then s.1.dropLast else s.1) ++ added op, false)

/-- The texts left after a history. -/
def survivors (ops : List SOp) : List Text := (ops.foldl survive ([], false)).1

end Verif.Spec
