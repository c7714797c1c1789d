import Verif.Basic
/-
`Arbitrary::size_hint` (src/arbitrary.rs), and how many input bytes `Arbitrary::arbitrary` reads.
The byte-level behaviour of `Unstructured::arbitrary_iter` belongs to the `arbitrary` crate (1.0.2), whose source is not in the
repository: `takeItems` states it as an assumption (see DESIGN.md, trusted base).
-/
namespace Verif.Arb

/-- src/arbitrary.rs:27-32, 49-54, 71-76, 92-97 `size_hint`, the same for all four containers: `cap` is `Self::CAPACITY`, `upper` the
upper bound of the element's (for `SparseChunk`: the option's) own `size_hint`; `deep` says that `recursion_guard` found the recursion
too deep, in which case it answers `(0, None)` without calling the closure. -/
def sizeHint {σ : Type} (E : Env) (cap : Nat) (deep : Bool) (upper : Option Nat) : M σ (Nat × Option Nat) :=
  if deep = true then pure (0, none)
  else match upper with
    | none => pure (0, none)
    | some u => do return (0, some (← umul E u cap))

/-- `u.arbitrary_iter()?.take(n)`, driven until it ends or yields an `Err` (src/arbitrary.rs:20 and 42, 64, 85: `collect` into a
`Result` stops there): the results, and the number of bytes taken from the input.  Before every item the iterator reads one byte (zero if there is none left), of
which the lowest bit says whether there is another item; then the element's own `arbitrary` runs, `el`, of which the model keeps the result (`none` =
`Err`) and the number of bytes taken. -/
def takeItems {B : Type} (el : List Nat → Option B × Nat) : Nat → List Nat → List (Option B) × Nat
  | 0, _ => ([], 0)
  | _ + 1, [] => ([], 0)
  | n + 1, b :: bs =>
    if b % 2 = 1 then
      match el bs with
      | (none, k) => ([none], 1 + k)
      | (some a, k) => (some a :: (takeItems el n (bs.drop k)).1, 1 + k + (takeItems el n (bs.drop k)).2)
    else ([], 1)

/-- `u8::arbitrary`, an element for examples: takes one byte, zero if there is none left. -/
def byte : List Nat → Option Nat × Nat
  | [] => (some 0, 0)
  | b :: _ => (some b, 1)
end Verif.Arb
