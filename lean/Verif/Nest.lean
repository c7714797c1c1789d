import Verif.CareSpec
import Verif.Chunk.View
import Verif.Ring.View
import Verif.Sparse.View
import Verif.Inline.View
import Verif.Inline.Lemmas
import Verif.Opaque
/-
Containers of containers.

The items of a container can be containers: their `Clone` and `Drop` are then those of Verif/Care.lean.  `Nested` says what a value of such a type is, to any
depth and mixing the four containers, and what it holds: lists of lists of ... of plain items.
-/
namespace Verif
variable {A τ X T : Type}

/-! ### Containers as items -/

/-- `Chunk<X, N>: Clone + Drop` (src/sized_chunk/mod.rs:99-121), seen by a container whose items are chunks. -/
def Chunk.elem (E : Env) (N : Nat) (e : Elem τ X) : Elem τ (Chunk X) where
  clone c := fun u => (Chunk.cloneBy E N e (c, u)).mapState Prod.snd
  drop c := fun u => (Chunk.dropBy E N e (c, u)).mapState Prod.snd

/-- `RingBuffer<X, N>: Clone + Drop` (src/ring_buffer/mod.rs:66-75, 770-782), seen by a container whose items are ring buffers. -/
def Ring.elem (E : Env) (N : Nat) (e : Elem τ X) : Elem τ (Ring X) where
  clone c := fun u => (Ring.cloneBy E N e (c, u)).mapState Prod.snd
  drop c := fun u => (Ring.dropBy E N e (c, u)).mapState Prod.snd

/-- `SparseChunk<X, N>: Clone + Drop` (src/sparse_chunk/mod.rs:63-83), seen by a container whose items are sparse chunks. -/
def Sparse.elem (N : Nat) (e : Elem τ X) : Elem τ (Sparse X) where
  clone c := fun u => (Sparse.cloneBy N e (c, u)).mapState Prod.snd
  drop c := fun u => (Sparse.dropBy N e (c, u)).mapState Prod.snd

/-- `InlineArray<X, T>: Clone + Drop` (src/inline_array/mod.rs:409-440), seen by a container whose items are inline arrays.  `place` says where the clone
is put (any address the layout allows).  Simplification: an array that is an item keeps that address when its container moves it; only its alignment is
ever used. -/
def Inline.elem [DecidableEq X] (E : Env) (L : Layout X) (place : Inline X → Nat) (e : Elem τ X) : Elem τ (Inline X) where
  clone c := fun u => (Inline.cloneBy E L e (place c) (c, u)).mapState Prod.snd
  drop c := fun u => (Inline.dropBy E L e (c, u)).mapState Prod.snd

/-! ### What they hold -/

/-- A list as an item: `run` destroys the items, `undo` disposes of the clones made when one panics. -/
def Elem.list (s : Elem τ T) (run undo : List T → M τ Unit) : Elem τ (List T) where
  clone l := Care.clone s undo l
  drop l := run l

/-- A list of items with their indices, as an item: destroyed one by one, and cloned with the same indices. -/
def Elem.indexed (s : Elem τ T) : Elem τ (List Nat × List T) where
  clone p := do return (p.1, ← Care.clone s s.dropEach p.2)
  drop p := s.dropEach p.2

/-- The four containers. -/
inductive Kind where
  | chunk | ring | sparse | inline

/-- `Nested E el ok e s V leaves`: `e` is the `Clone` and `Drop` of a type of containers of containers of ... of plain items with `Clone` and `Drop` `el`, to
any depth (depth 0: the plain items themselves), all of the kinds allowed by `ok`.  `V x t` says that the value `x` shows `t`, a list
of lists of ... of items; `s` is what cloning and destroying mean for these lists; `leaves t` are the plain items in `t`, in order. -/
inductive Nested (E : Env) (el : Elem τ A) (ok : Kind → Prop) : {X T : Type} → Elem τ X → Elem τ T → (X → T → Prop) → (T → List A) → Prop where
  | item : Nested E el ok el el Eq (fun a => [a])
  | chunk {X T : Type} {e : Elem τ X} {s : Elem τ T} {V : X → T → Prop} {leaves : T → List A} {N : Nat} (h : Nested E el ok e s V leaves)
      (hk : ok .chunk) (hN : 2 * N < E.W) :
      Nested E el ok (Chunk.elem E N e) (s.list s.dropSlice s.dropSlice) (fun c ts => ∃ xs, Chunk.View E N c xs ∧ Pairwise2 V xs ts)
        (fun ts => ts.flatMap leaves)
  | ring {X T : Type} {e : Elem τ X} {s : Elem τ T} {V : X → T → Prop} {leaves : T → List A} {N : Nat} (h : Nested E el ok e s V leaves)
      (hk : ok .ring) (hN : 0 < N) (hW : 2 * N < E.W) :
      Nested E el ok (Ring.elem E N e) (s.list s.dropEach s.dropEach) (fun c ts => ∃ xs, Ring.View E N c xs ∧ Pairwise2 V xs ts)
        (fun ts => ts.flatMap leaves)
  | sparse {X T : Type} {e : Elem τ X} {s : Elem τ T} {V : X → T → Prop} {leaves : T → List A} {N : Nat} (h : Nested E el ok e s V leaves)
      (hk : ok .sparse) :
      Nested E el ok (Sparse.elem N e) s.indexed
        (fun c p => ∃ m, Sparse.View N c m ∧ m.keys N = p.1 ∧ Pairwise2 V (m.vals N) p.2) (fun p => p.2.flatMap leaves)
  | inline {X T : Type} [DecidableEq X] {e : Elem τ X} {s : Elem τ T} {V : X → T → Prop} {leaves : T → List A} {L : Layout X} {place : Inline X → Nat}
      (h : Nested E el ok e s V leaves) (hk : ok .inline) (hv : L.Valid E) :
      Nested E el ok (Inline.elem E L place e) (s.list s.dropSlice (fun _ => pure ()))
        (fun c ts => ∃ xs, Inline.Rep E L c xs ∧ Pairwise2 V xs ts) (fun ts => ts.flatMap leaves)

/-! ### Calls -/

/-- The items cloned, in order. -/
def Call.sources (cs : List (Call A)) : List A := cs.filterMap fun
  | .clone a _ => some a
  | .drop _ => none
/-- The clones made, in order. -/
def Call.made (cs : List (Call A)) : List A := cs.filterMap fun
  | .clone _ b => b
  | .drop _ => none
/-- The items destroyed, in order. -/
def Call.gone (cs : List (Call A)) : List A := cs.filterMap fun
  | .clone _ _ => none
  | .drop a => some a
/-- What was destroyed against what was made: nothing more often than it was made, and, if `all`, everything exactly once. -/
def Freed (all : Prop) (gone made : List A) : Prop := (∃ g : List A, g.Perm gone ∧ g.Sublist made) ∧ (all → gone.Perm made)
end Verif
