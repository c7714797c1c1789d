import Verif.Props.AliasRingMethods
/-
Protectors: a reference which is the argument of a function has to stay valid until that function returns, whether or not it is used again.
Both aliasing disciplines make it undefined behaviour to invalidate it earlier.
-/
namespace Verif.Alias
open Verif
variable {σ α : Type}

/-- An argument: a reference, `&mut` (`w`) or `&`, and the cells it covers. -/
structure Arg where
  tag : Tag
  w : Bool
  cells : List Cell
deriving DecidableEq, Repr

/-- The reference could be used now, at each of its cells: for writing if it is a `&mut`, else for reading. -/
def Arg.alive (R : Rules σ) (g : Arg) (s : σ) : Bool :=
  g.cells.all fun c => (if g.w = true then R.write g.tag [c] s else R.read g.tag [c] s).isSome

/-- An operation, which is rejected if one of the arguments is no longer valid after it. -/
def guarding (R : Rules σ) (gs : List Arg) (m : P σ α) : P σ α := fun s =>
  match m s with
  | some (a, s') => if gs.all (fun g => g.alive R s') then some (a, s') else none
  | none => none

/-- The discipline `R` in a function with the arguments `gs`: it is undefined behaviour to make one of them invalid. Tree Borrows moreover forbids to
write through a `&mut` argument which has not been written through before, once the cell has been read through a reference not derived from the argument;
see `TB.exclusive`. -/
def Rules.guarded (R : Rules σ) (gs : List Arg) : Rules σ where
  reMut t cells := guarding R gs (R.reMut t cells)
  reShr t cells := guarding R gs (R.reShr t cells)
  raw t cells := guarding R gs (R.raw t cells)
  read t cells := guarding R gs (R.read t cells)
  write t cells := guarding R gs (R.write t cells)

/-- Some cell of an argument is accessed through a reference which is not derived from the argument. -/
def TB.foreign (gs : List Arg) (t : Tag) (cells : List Cell) (s : TB) : Bool :=
  gs.any fun g => cells.any fun c => decide (c ∈ g.cells) && !decide (g.tag ∈ s.up t)

/-- An operation, which is rejected if it is such an access. -/
def TB.exclusively (gs : List Arg) (t : Tag) (cells : List Cell) (m : P TB α) : P TB α := fun s => if TB.foreign gs t cells s then none else m s

/-- Tree Borrows in a function with the arguments `gs`, stricter than with protectors: in the whole function the arguments' cells may only be accessed through
them or references derived from them. -/
def TB.exclusive (gs : List Arg) : Rules TB where
  reMut t cells := TB.exclusively gs t cells (TB.rules.reMut t cells)
  reShr t cells := TB.exclusively gs t cells (TB.rules.reShr t cells)
  raw t cells := TB.rules.raw t cells
  read t cells := TB.exclusively gs t cells (TB.rules.read t cells)
  write t cells := TB.exclusively gs t cells (TB.rules.write t cells)

/-- `self` and the other container, both as `&mut`, for a call on the containers `xs`. -/
def selves (N : Nat) (b : Nat → Tag) (xs : List Nat) : List Arg := xs.map fun x => ⟨b x, true, whole x N⟩

end Verif.Alias
