import Verif.Ring.Bal
/-
How the property theorems observe a buffer: only through `iter`.
-/
namespace Verif
namespace Ring
variable {A : Type}

/-- `c.iter()` yields exactly the items of `l` (and does nothing else), and the two counters of the buffer are in range. -/
def View (E : Env) (N : Nat) (c : Ring A) (l : List A) : Prop := items E N c = .ok l c ∧ c.origin < N ∧ c.length ≤ N

/-- A buffer the client can get hold of: it is alive after some history of calls from nothing. -/
def Reachable (E : Env) (N : Nat) (dp : A → Bool) (cl : A → Option A) (c : Ring A) : Prop :=
  ∃ ops os w h, (machine E N dp cl).run ops World.empty = .ok os w ∧ w.heap h = some c

variable {E : Env} {N : Nat} {dp : A → Bool} {cl : A → Option A}

theorem iterNext_eq (hW : 2 * N < E.W) {c : Ring A} {o a r right : Nat} (ho : o < N) (ha : a + r + 1 ≤ N) :
    iterNext E N ⟨r + 1, ridx N o a, right⟩ c = match lm N o c.mem a with
      | some x => .ok (some (x, ⟨r, ridx N o (a + 1), right⟩)) c
      | none => .ub := by
  have h1 : ridx N o a < N := ridx_lt ho (by omega)
  have e : ridx N (ridx N o a) 1 = ridx N o (a + 1) := ridx_ridx ho (by omega)
  have hi : ∀ s : Ring A, rawInc E N (ridx N o a) s = .ok (ridx N o (a + 1)) s := by
    intro s
    have := sat_rawInc (E := E) (σ := Ring A) (P := fun _ => False) (B := False) (Q := fun r s' => r = ridx N o (a + 1) ∧ s' = s)
      (s := s) hW h1 ⟨e, rfl⟩
    cases hx : rawInc E N (ridx N o a) s <;> rw [hx] at this <;> simp [Sat] at this
    rw [this.1, this.2]
  have hl : lm N o c.mem a = c.mem (ridx N o a) := by unfold lm; rw [if_pos (by omega)]
  rw [hl]
  cases hm : c.mem (ridx N o a) <;> cases hd : E.debug <;>
    simp [iterNext, usub, hi, forceRead, M.debugAssert, h1, getMem, memRead, hm, hd, M.ub]

theorem collectIter_inv (hW : 2 * N < E.W) {c c' : Ring A} {o right : Nat} (ho : o < N) (r a f : Nat) (l : List A)
    (ha : a + r ≤ N) (hf : r < f) (h : collectIter E N f ⟨r, ridx N o a, right⟩ c = .ok l c') :
    l.length = r ∧ ∀ j, j < r → lm N o c.mem (a + j) = l[j]? := by
  induction r generalizing a f l with
  | zero =>
    obtain ⟨f, rfl⟩ : ∃ g, f = g + 1 := ⟨f - 1, by omega⟩
    simp only [collectIter, iterNext, M.bind_run, if_true, M.pure_run, Out.andThen_ok] at h
    cases h
    exact ⟨rfl, fun j hj => absurd hj (by omega)⟩
  | succ r ih =>
    obtain ⟨f, rfl⟩ : ∃ g, f = g + 1 := ⟨f - 1, by omega⟩
    simp only [collectIter, M.bind_run] at h
    rw [iterNext_eq hW ho (by omega)] at h
    cases hx : lm N o c.mem a with
    | none => rw [hx] at h; simp at h
    | some x =>
      rw [hx] at h
      simp only [Out.andThen_ok, M.bind_run] at h
      cases hy : collectIter E N f ⟨r, ridx N o (a + 1), right⟩ c with
      | ok l' c'' =>
        rw [hy] at h
        simp only [Out.andThen_ok, M.pure_run] at h
        cases h
        obtain ⟨h1, h2⟩ := ih (a + 1) f l' (by omega) (by omega) hy
        refine ⟨by simp [h1], fun j hj => ?_⟩
        cases j with
        | zero => simpa using hx
        | succ j =>
          have := h2 j (by omega)
          rw [show a + (j + 1) = a + 1 + j by omega, this]; simp
      | panic _ => rw [hy] at h; simp at h
      | ub => rw [hy] at h; simp at h
      | abort => rw [hy] at h; simp at h
      | diverge => rw [hy] at h; simp at h

theorem view_iff (hW : 2 * N < E.W) {c : Ring A} {l : List A} : View E N c l ↔ Rep N c l := by
  constructor
  · rintro ⟨h, ho, hl⟩
    have e : items E N c = collectIter E N (c.length + 1) ⟨c.length, ridx N c.origin 0, ridx N c.origin c.length⟩ c := by
      have := sat_rawAdd (E := E) (σ := Ring A) (P := fun _ => False) (B := False)
        (Q := fun r s' => r = ridx N c.origin c.length ∧ s' = c) (s := c) hW ho hl ⟨rfl, rfl⟩
      cases hx : rawAdd E N c.origin c.length c <;> rw [hx] at this <;> simp [Sat] at this
      obtain ⟨rfl, rfl⟩ := this
      simp only [items, iter, getOrigin, getLen, M.bind_run, Out.andThen_ok, hx, M.pure_run, ridx_zero ho]
    rw [e] at h
    obtain ⟨h1, h2⟩ := collectIter_inv hW ho c.length 0 (c.length + 1) l (by omega) (by omega) h
    exact ⟨ho, h1.symm, by omega, fun j hj => by simpa using h2 j (by omega)⟩
  · intro h
    exact ⟨items_eq hW h, h.org, by rw [h.len]; exact h.le⟩

theorem View.rep (hW : 2 * N < E.W) {c : Ring A} {l : List A} (h : View E N c l) : Rep N c l := (view_iff hW).1 h
theorem Rep.view (hW : 2 * N < E.W) {c : Ring A} {l : List A} (h : Rep N c l) : View E N c l := (view_iff hW).2 h

/-- Two buffers, seen through `iter`. -/
def View2 (E : Env) (N : Nat) (s : Ring A × Ring A) (t : List A × List A) : Prop :=
  View E N s.1 t.1 ∧ View E N s.2 t.2

theorem Ref.view (hW : 2 * N < E.W) {α : Type} {o : Out (Ring A) α} {o' : Out (List A) α} (h : Ref (Rep N) o o') : Ref (View E N) o o' :=
  h.imp fun _ _ h => h.view hW
theorem Ref.viewLog (hW : 2 * N < E.W) {α : Type} {o : Out (Ring A × List A) α} {o' : Out (List A × List A) α}
    (h : Ref (RelLog (Rep N)) o o') : Ref (RelLog (View E N)) o o' :=
  h.imp fun _ _ h => ⟨h.1.view hW, h.2⟩
theorem Ref.view2 (hW : 2 * N < E.W) {α : Type} {o : Out (Ring A × Ring A) α} {o' : Out (List A × List A) α}
    (h : Ref (fun s t => Rep N s.1 t.1 ∧ Rep N s.2 t.2) o o') : Ref (View2 E N) o o' :=
  h.imp fun _ _ h => ⟨h.1.view hW, h.2.view hW⟩
theorem RefV.viewLog (hW : 2 * N < E.W) {o : Out (Ring A × List A) (Ring A)} {o' : Out (List A × List A) (List A)}
    (h : RefV (Rep N) (RelLog (Rep N)) o o') : RefV (View E N) (RelLog (View E N)) o o' :=
  h.imp (fun _ _ h => h.view hW) (fun _ _ h => ⟨h.1.view hW, h.2⟩)

theorem view_eq_rep (hW : 2 * N < E.W) : (View E N : Ring A → List A → Prop) = Rep N := by
  funext c l; exact propext (view_iff hW)

theorem machineRelView (hN : 0 < N) (hW : 2 * N < E.W) : MachineRel (View E N) (machine E N dp cl) (specMachine E N dp cl) := by
  rw [view_eq_rep hW]; exact machineRel hN hW

theorem Reachable.view (hN : 0 < N) (hW : 2 * N < E.W) {c : Ring A} (h : Reachable E N dp cl c) : ∃ l, View E N c l := by
  obtain ⟨ops, os, w, i, hr, hc⟩ := h
  have h := (machineRelView hN hW).run_ref ops (MachineRel.empty_rel (R := View E N)) (m := machine E N dp cl)
  rw [hr] at h
  obtain ⟨v, _, hw⟩ := h
  have := hw.heap i
  rw [hc] at this
  cases hv : v.heap i with
  | none => rw [hv] at this; exact this.elim
  | some l => rw [hv] at this; exact ⟨l, this⟩

end Ring
end Verif
