import Verif.Chunk.Bal
/-
How the property theorems observe a chunk: only through `as_slice`.
-/
namespace Verif
namespace Chunk
variable {A : Type}

/-- `c.as_slice()` returns `l` (and does nothing else). -/
def View (E : Env) (N : Nat) (c : Chunk A) (l : List A) : Prop := asSlice E N c = .ok l c

/-- A chunk the client can get hold of: it is alive after some history of calls from nothing. -/
def Reachable (E : Env) (N : Nat) (dp : A → Bool) (cl : A → Option A) (c : Chunk A) : Prop :=
  ∃ ops os w h, (machine E N dp cl).run ops World.empty = .ok os w ∧ w.heap h = some c

variable {E : Env} {N : Nat} {dp : A → Bool} {cl : A → Option A}

theorem view_iff (hN : 2 * N < E.W) {c : Chunk A} {l : List A} : View E N c l ↔ Rep N c l :=
  asSlice_iff (by omega)

theorem View.rep (hN : 2 * N < E.W) {c : Chunk A} {l : List A} (h : View E N c l) : Rep N c l := (view_iff hN).1 h
theorem _root_.Verif.Chunk.Rep.view (E : Env) {c : Chunk A} {l : List A} (h : Rep N c l) : View E N c l := asSlice_eq h

/-- Two chunks, seen as slices. -/
def View2 (E : Env) (N : Nat) (s : Chunk A × Chunk A) (t : List A × List A) : Prop :=
  View E N s.1 t.1 ∧ View E N s.2 t.2

theorem Ref.view {α : Type} {o : Out (Chunk A) α} {o' : Out (List A) α} (h : Ref (Rep N) o o') : Ref (View E N) o o' :=
  h.imp fun _ _ h => h.view E
theorem Ref.viewLog {α : Type} {o : Out (Chunk A × List A) α} {o' : Out (List A × List A) α}
    (h : Ref (RelLog (Rep N)) o o') : Ref (RelLog (View E N)) o o' :=
  h.imp fun _ _ h => ⟨h.1.view E, h.2⟩
theorem Ref.view2 {α : Type} {o : Out (Chunk A × Chunk A) α} {o' : Out (List A × List A) α}
    (h : Ref (Rep2 N) o o') : Ref (View2 E N) o o' :=
  h.imp fun _ _ h => ⟨h.1.view E, h.2.view E⟩

theorem machineRelView (hN : 2 * N < E.W) : MachineRel (View E N) (machine E N dp cl) (specMachine E N dp cl) := by
  have : (View E N : Chunk A → List A → Prop) = Rep N := by
    funext c l; exact propext (view_iff hN)
  rw [this]; exact machineRel hN

theorem Reachable.view (hN : 2 * N < E.W) {c : Chunk A} (h : Reachable E N dp cl c) : ∃ l, View E N c l := by
  obtain ⟨ops, os, w, i, hr, hc⟩ := h
  have h := (machineRelView hN).run_ref ops (MachineRel.empty_rel (R := View E N)) (m := machine E N dp cl)
  rw [hr] at h
  obtain ⟨v, _, hw⟩ := h
  have := hw.heap i
  rw [hc] at this
  cases hv : v.heap i with
  | none => rw [hv] at this; exact this.elim
  | some l => rw [hv] at this; exact ⟨l, this⟩

end Chunk
end Verif
