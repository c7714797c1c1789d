import Verif.Inline.Bal
/-
How the property theorems observe an inline array: only through `deref` (the slice of its contents).
-/
namespace Verif
namespace Inline
variable {A : Type} [DecidableEq A]

/-- `&array[..]` shows `l` (and looking does nothing else). -/
def View (E : Env) (L : Layout A) (s : Inline A) (l : List A) : Prop := items E L s = .ok l s

/-- An array the client can get hold of: it is alive after some history of calls from nothing. -/
def Reachable (E : Env) (L : Layout A) (dp : A → Bool) (cl : A → Option A) (s : Inline A) : Prop :=
  ∃ ops os w h, (machine E L dp cl).run ops World.empty = .ok os w ∧ w.heap h = some s

variable {E : Env} {L : Layout A} {dp : A → Bool} {cl : A → Option A}

theorem Rep.view (hv : L.Valid E) {s : Inline A} {l : List A} (h : Rep E L s l) : View E L s l := items_eq hv h

theorem WorldRel.imp {A C D : Type} {R R' : C → D → Prop} (hR : ∀ c d, R c d → R' c d) {w : World A C} {v : World A D} (h : WorldRel R w v) :
    WorldRel R' w v := by
  refine ⟨h.next, h.log, h.made, fun i => ?_⟩
  have := h.heap i
  cases hw : w.heap i <;> cases hd : v.heap i <;> rw [hw, hd] at this <;> simp only [RelOpt] at *
  exact hR _ _ this

theorem Reachable.rep (hv : L.Valid E) {s : Inline A} (h : Reachable E L dp cl s) : ∃ l, Rep E L s l := by
  obtain ⟨ops, os, w, i, hr, hc⟩ := h
  have h := (machineRel hv).run_ref ops (MachineRel.empty_rel (R := Rep E L)) (m := machine E L dp cl)
  rw [hr] at h
  obtain ⟨v, _, hw⟩ := h
  have := hw.heap i
  rw [hc] at this
  cases hv : v.heap i with
  | none => rw [hv] at this; exact this.elim
  | some l => rw [hv] at this; exact ⟨l, this⟩

theorem Reachable.rep_of_view (hv : L.Valid E) {s : Inline A} {l : List A} (h : Reachable E L dp cl s) (hl : View E L s l) : Rep E L s l := by
  obtain ⟨l', h'⟩ := h.rep hv
  have := items_eq hv h'
  rw [View, this] at hl
  cases hl
  exact h'

end Inline
end Verif
