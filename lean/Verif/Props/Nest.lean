import Verif.Nest
import Verif.Props.CareChunk
import Verif.Props.CareRing
import Verif.Props.CareSparse
import Verif.Props.CareInline
/-
C111: containers of containers.
-/
namespace Verif
variable {A τ X T : Type} {E : Env} {el : Elem τ A}

theorem Out.Same.trans {α β γ σ ρ κ : Type} {V : α → β → Prop} {V' : β → γ → Prop} {R : σ → ρ → Prop} {R' : ρ → κ → Prop} {x : Out σ α} {y : Out ρ β}
    {z : Out κ γ} (h : Out.Same V R x y) (h' : Out.Same V' R' y z) :
    Out.Same (fun a c => ∃ b, V a b ∧ V' b c) (fun s t => ∃ r, R s r ∧ R' r t) x z := by
  cases x <;> cases y <;> cases z <;> simp_all [Out.Same]
  · exact ⟨⟨_, h.1, h'.1⟩, _, h.2, h'.2⟩
  · exact ⟨_, h, h'⟩

theorem Out.Same.mapState_left {α β σ ρ κ : Type} {V : α → β → Prop} {R : σ → ρ → Prop} {R' : κ → ρ → Prop} {x : Out σ α} {y : Out ρ β} {f : σ → κ}
    (h : Out.Same V R x y) (hf : ∀ s t, R s t → R' (f s) t) : Out.Same V R' (x.mapState f) y := by
  cases x <;> cases y <;> simp_all [Out.Same, Out.mapState]

/-- Two sorts of items behave the same, values related by `V`. -/
structure ElemSim (V : X → T → Prop) (e : Elem τ X) (s : Elem τ T) : Prop where
  drop : ∀ {x t}, V x t → ∀ u, Out.Same Eq Eq (e.drop x u) (s.drop t u)
  clone : ∀ {x t}, V x t → ∀ u, Out.Same V Eq (e.clone x u) (s.clone t u)

section
variable {V : X → T → Prop} {e : Elem τ X} {s : Elem τ T}

theorem ElemSim.dropEach (h : ElemSim V e s) {xs : List X} {ts : List T} (hl : Pairwise2 V xs ts) (u : τ) :
    Out.Same Eq Eq (e.dropEach xs u) (s.dropEach ts u) := by
  induction hl generalizing u with
  | nil => exact ⟨rfl, rfl⟩
  | cons hx _ ih =>
    simp only [Elem.dropEach, M.bind_run]
    refine (h.drop hx u).bind (fun _ _ h => h) ?_
    rintro _ s _ t - rfl
    exact ih s

theorem ElemSim.dropSlice (h : ElemSim V e s) {xs : List X} {ts : List T} (hl : Pairwise2 V xs ts) (u : τ) :
    Out.Same Eq Eq (e.dropSlice xs u) (s.dropSlice ts u) := by
  induction hl generalizing u with
  | nil => exact ⟨rfl, rfl⟩
  | cons hx hl ih =>
    rename_i x t xs ts
    simp only [Elem.dropSlice, M.bind_run, M.onUnwind]
    have hd := h.drop hx u
    cases hx : e.drop x u <;> cases hy : s.drop t u <;> rw [hx, hy] at hd <;> simp only [Out.Same] at hd
    · obtain ⟨-, rfl⟩ := hd
      simpa using ih _
    · subst hd
      rename_i w
      have := h.dropEach hl w
      cases hx : e.dropEach xs w <;> cases hy : s.dropEach ts w <;> rw [hx, hy] at this <;> simp_all [Out.Same]
    all_goals simp [Out.Same]

theorem ElemSim.cloneEach (h : ElemSim V e s) {xs : List X} {ts : List T} (hl : Pairwise2 V xs ts) {xd : List X} {td : List T} (hd : Pairwise2 V xd td)
    (u : τ) : Out.Same Eq (fun a b => Pairwise2 V a.1 b.1 ∧ a.2 = b.2) (e.cloneEach xs (xd, u)) (s.cloneEach ts (td, u)) := by
  induction hl generalizing u xd td with
  | nil => exact ⟨rfl, hd, rfl⟩
  | cons hx _ ih =>
    rename_i x t xs ts _
    simp only [Elem.cloneEach, M.bind_run, M.onSnd_run]
    have hc := h.clone hx u
    cases hx : e.clone x u <;> cases hy : s.clone t u <;> rw [hx, hy] at hc <;> simp only [Out.Same] at hc
    · obtain ⟨hv, rfl⟩ := hc
      simp only [Out.mapState_ok, Out.andThen_ok, M.onFst_run, M.bind_run, M.get_run, M.set_run]
      refine ih ?_ _
      clear ih hx hy
      induction hd with
      | nil => exact .cons hv .nil
      | cons h1 _ ih => exact .cons h1 ih
    · subst hc; exact ⟨hd, rfl⟩
    all_goals simp [Out.Same]

theorem ElemSim.cloneAll (h : ElemSim V e s) {run : List X → M τ Unit} {run' : List T → M τ Unit}
    (hrun : ∀ {xs ts}, Pairwise2 V xs ts → ∀ u, Out.Same Eq Eq (run xs u) (run' ts u)) {xs : List X} {ts : List T} (hl : Pairwise2 V xs ts) (u : τ) :
    Out.Same (Pairwise2 V) Eq (Care.clone e run xs u) (Care.clone s run' ts u) := by
  have hc := h.cloneEach hl .nil u
  unfold Care.clone
  cases hx : e.cloneEach xs ([], u) <;> cases hy : s.cloneEach ts ([], u) <;> rw [hx, hy] at hc <;> simp only [Out.Same] at hc
  · exact hc.2
  · rename_i a b
    obtain ⟨h1, h2⟩ := hc
    have := hrun h1 a.2
    rw [h2] at this
    simp only [h2]
    cases hx : run a.1 b.2 <;> cases hy : run' b.1 b.2 <;> rw [hx, hy] at this <;> simp_all [Out.Same]
  all_goals simp [Out.Same]
end

/-- C111. Containers of containers, to any depth and mixing the four, clone and are destroyed as the lists they show: a nested value and what it shows
end the same way (return, panic, abort), the plain items' own `clone` and destructors having run in the same way on the user's state, and a clone shows
the clone of the lists.  In particular nothing about the nesting is undefined behaviour. -/
theorem C111_nested {ok : Kind → Prop} {e : Elem τ X} {s : Elem τ T} {V : X → T → Prop} {leaves : T → List A} (h : Nested E el ok e s V leaves) :
    (∀ {x t}, V x t → ∀ u, Out.Same Eq Eq (e.drop x u) (s.drop t u)) ∧ (∀ {x t}, V x t → ∀ u, Out.Same V Eq (e.clone x u) (s.clone t u)) := by
  suffices ElemSim V e s from ⟨this.drop, this.clone⟩
  induction h with
  | item =>
    refine ⟨?_, ?_⟩ <;> rintro x _ rfl u
    · cases el.drop x u <;> simp [Out.Same]
    · cases el.clone x u <;> simp [Out.Same]
  | chunk h _ hN ih =>
    refine ⟨?_, ?_⟩ <;> rintro c ts ⟨xs, hc, hx⟩ u
    · simp only [Chunk.elem, Elem.list, Chunk.dropBy_same (hc.rep hN)]
      have := ih.dropSlice hx u
      revert this
      cases Elem.dropSlice _ xs u <;> simp [Out.mapState]
    · have h1 := (Chunk.C109_clone (el := _) hN hc u).trans (ih.cloneAll ih.dropSlice hx u)
      refine (h1.mapState_left (R' := Eq) ?_).imp ?_ (fun _ _ h => h)
      · rintro s t ⟨r, ⟨-, h1⟩, h2⟩; exact h1.trans h2
      · rintro d bs ⟨ys, ⟨h1, -⟩, h2⟩; exact ⟨ys, h1, h2⟩
  | ring h _ hN hW ih =>
    refine ⟨?_, ?_⟩ <;> rintro c ts ⟨xs, hc, hx⟩ u
    · simp only [Ring.elem, Elem.list, Ring.dropBy_same hW (hc.rep hW)]
      have := ih.dropEach hx u
      revert this
      cases Elem.dropEach _ xs u <;> simp [Out.mapState]
    · have h1 := (Ring.C109_clone (el := _) hN hW hc u).trans (ih.cloneAll ih.dropEach hx u)
      refine (h1.mapState_left (R' := Eq) ?_).imp ?_ (fun _ _ h => h)
      · rintro s t ⟨r, ⟨-, h1⟩, h2⟩; exact h1.trans h2
      · rintro d bs ⟨ys, ⟨h1, -⟩, h2⟩; exact ⟨ys, h1, h2⟩
  | sparse h _ ih =>
    refine ⟨?_, ?_⟩ <;> rintro c ⟨ks, ts⟩ ⟨m, hc, hk, hx⟩ u
    · simp only [Sparse.elem, Elem.indexed, Sparse.dropBy_same hc.rep]
      have := ih.dropEach hx u
      revert this
      cases Elem.dropEach _ _ u <;> simp [Out.mapState]
    · have h1 := (Sparse.C109_clone (el := _) hc u).trans (ih.cloneAll ih.dropEach hx u)
      have h2 := h1.mapState_left (R' := Eq) (f := Prod.snd) (by rintro s t ⟨r, ⟨-, h1⟩, h2⟩; exact h1.trans h2)
      simp only [Sparse.elem, Elem.indexed, M.bind_run]
      dsimp only at hk
      subst hk
      cases hx : Care.clone _ _ ts u <;> rw [hx] at h2 <;> revert h2 <;>
        cases ((Sparse.cloneBy _ _ (c, u)).mapState Prod.snd) <;> simp only [Out.Same, Out.andThen_ok, Out.andThen_panic, Out.andThen_abort,
          Out.andThen_ub, Out.andThen_diverge, M.pure_run, imp_self]
      rintro ⟨⟨ys, ⟨m', h1, h2, h3⟩, h4⟩, h5⟩
      exact ⟨⟨m', h1, h2, h3 ▸ h4⟩, h5⟩
  | inline h _ hv ih =>
    refine ⟨?_, ?_⟩ <;> rintro c ts ⟨xs, hc, hx⟩ u
    · simp only [Inline.elem, Elem.list, Inline.dropBy_same hv hc]
      have := ih.dropSlice hx u
      revert this
      cases Elem.dropSlice _ xs u <;> simp [Out.mapState]
    · have h1 := fun k => (Inline.cloneBy_same (el := _) hv k hc u).trans (ih.cloneAll (run := fun _ => pure ()) (run' := fun _ => pure ()) (fun _ _ => ⟨rfl, rfl⟩) hx u)
      refine ((h1 _).mapState_left (R' := Eq) ?_).imp ?_ (fun _ _ h => h)
      · rintro s t ⟨r, ⟨-, h1⟩, h2⟩; exact h1.trans h2
      · rintro d bs ⟨ys, h1, h2⟩; exact ⟨ys, h1, h2⟩

/-! ### The calls of the plain items -/

/-- The calls made by cloning and destroying lists of lists of items. -/
structure Leafy (ok : Kind → Prop) (leaves : T → List A) (s : Elem (τ × List (Call A)) T) : Prop where
  drop_ok : ∀ {t u log w}, s.drop t (u, log) = .ok () w → w.2 = log ++ (leaves t).map .drop
  drop_panic : ∀ {t u log w}, s.drop t (u, log) = .panic w →
    ∃ d : List A, d.Sublist (leaves t) ∧ w.2 = log ++ d.map .drop ∧ (¬ ok .ring → ¬ ok .sparse → d = leaves t)
  clone_ok : ∀ {t u log t' w}, s.clone t (u, log) = .ok t' w →
    (leaves t').length = (leaves t).length ∧ w.2 = log ++ Call.clones (leaves t) (leaves t')
  clone_panic : ∀ {t u log w}, s.clone t (u, log) = .panic w →
    ∃ cs, w.2 = log ++ cs ∧ Call.sources cs <+: leaves t ∧ (Call.sources cs).length = (Call.made cs).length + 1 ∧
      Freed (¬ ok .inline) (Call.gone cs) (Call.made cs)

section
variable {ok : Kind → Prop} {leaves : T → List A} {s : Elem (τ × List (Call A)) T}

theorem Leafy.dropEach (h : Leafy ok leaves s) (ts : List T) (u : τ) (log : List (Call A)) :
    (∀ w, s.dropEach ts (u, log) = .ok () w → w.2 = log ++ (ts.flatMap leaves).map .drop) ∧
    (∀ w, s.dropEach ts (u, log) = .panic w → ∃ d : List A, d.Sublist (ts.flatMap leaves) ∧ w.2 = log ++ d.map .drop) := by
  induction ts generalizing u log with
  | nil => simp [Elem.dropEach]
  | cons t ts ih =>
    simp only [Elem.dropEach, M.bind_run]
    cases hx : s.drop t (u, log) with
    | ok v w =>
      obtain ⟨u', log'⟩ := w
      have e := h.drop_ok hx
      dsimp only at e
      subst e
      simp only [Out.andThen_ok]
      refine ⟨fun w hw => ?_, fun w hw => ?_⟩
      · rw [(ih _ _).1 w hw]; simp
      · obtain ⟨d, h1, h2⟩ := (ih _ _).2 w hw
        exact ⟨leaves t ++ d, by simpa using h1, by rw [h2]; simp⟩
    | panic w =>
      obtain ⟨d, h1, h2, -⟩ := h.drop_panic hx
      simp only [Out.andThen_panic]
      refine ⟨fun w hw => by simp at hw, fun w hw => ?_⟩
      simp only [Out.panic.injEq] at hw
      subst hw
      exact ⟨d, by simpa using h1.trans (List.sublist_append_left _ _), h2⟩
    | _ => simp

theorem Leafy.dropSlice (h : Leafy ok leaves s) (ts : List T) (u : τ) (log : List (Call A)) :
    (∀ w, s.dropSlice ts (u, log) = .ok () w → w.2 = log ++ (ts.flatMap leaves).map .drop) ∧
    (∀ w, s.dropSlice ts (u, log) = .panic w → ∃ d : List A, d.Sublist (ts.flatMap leaves) ∧ w.2 = log ++ d.map .drop ∧
      (¬ ok .ring → ¬ ok .sparse → d = ts.flatMap leaves)) := by
  induction ts generalizing u log with
  | nil => simp [Elem.dropSlice]
  | cons t ts ih =>
    simp only [Elem.dropSlice, M.bind_run, M.onUnwind]
    cases hx : s.drop t (u, log) with
    | ok v w =>
      obtain ⟨u', log'⟩ := w
      have e := h.drop_ok hx
      dsimp only at e
      subst e
      simp only [Out.andThen_ok]
      refine ⟨fun w hw => ?_, fun w hw => ?_⟩
      · rw [(ih _ _).1 w hw]; simp
      · obtain ⟨d, h1, h2, h3⟩ := (ih _ _).2 w hw
        exact ⟨leaves t ++ d, by simpa using h1, by rw [h2]; simp, fun a b => by simp [h3 a b]⟩
    | panic w =>
      obtain ⟨d, h1, h2, h3⟩ := h.drop_panic hx
      obtain ⟨u', log'⟩ := w
      dsimp only at h2 ⊢
      subst h2
      cases hy : s.dropEach ts (u', log ++ d.map .drop) with
      | ok v w =>
        simp only [Out.andThen_panic]
        refine ⟨fun w hw => by simp at hw, fun w' hw => ?_⟩
        simp only [Out.panic.injEq] at hw
        subst hw
        refine ⟨d ++ ts.flatMap leaves, ?_, ?_, ?_⟩
        · simpa using h1
        · rw [(h.dropEach _ _ _).1 _ hy]; simp
        · intro a b; simp [h3 a b]
      | _ => simp
    | _ => simp

theorem Call.made_clones : ∀ {l bs : List A}, bs.length = l.length → Call.made (Call.clones l bs) = bs ∧ Call.sources (Call.clones l bs) = l ∧
    Call.gone (Call.clones l bs) = []
  | [], [], _ => by simp [Call.made, Call.sources, Call.gone, Call.clones]
  | a :: l, b :: bs, h => by
    have := Call.made_clones (l := l) (bs := bs) (by simpa using h)
    simp only [Call.clones, Call.made, Call.sources, Call.gone, List.zipWith_cons_cons, List.filterMap_cons] at this ⊢
    simp [this]
theorem Call.made_append (x y : List (Call A)) : Call.made (x ++ y) = Call.made x ++ Call.made y := by simp [Call.made]
theorem Call.gone_append (x y : List (Call A)) : Call.gone (x ++ y) = Call.gone x ++ Call.gone y := by simp [Call.gone]
theorem Call.sources_append (x y : List (Call A)) : Call.sources (x ++ y) = Call.sources x ++ Call.sources y := by simp [Call.sources]
theorem Call.made_drops (l : List A) : Call.made (l.map Call.drop) = [] ∧ Call.sources (l.map Call.drop) = [] ∧ Call.gone (l.map Call.drop) = l := by
  induction l with
  | nil => simp [Call.made, Call.gone, Call.sources]
  | cons a l ih =>
    simp only [Call.made, Call.gone, Call.sources, List.map_cons, List.filterMap_cons] at ih ⊢
    simp [ih]
theorem Call.clones_append {l₁ b₁ : List A} (h : b₁.length = l₁.length) (l₂ b₂ : List A) :
    Call.clones (l₁ ++ l₂) (b₁ ++ b₂) = Call.clones l₁ b₁ ++ Call.clones l₂ b₂ := by
  unfold Call.clones; rw [List.zipWith_append h.symm]

theorem Leafy.cloneEach (h : Leafy ok leaves s) (ts done : List T) (u : τ) (log : List (Call A)) :
    (∀ w, s.cloneEach ts (done, (u, log)) = .ok () w → ∃ bs, w.1 = done ++ bs ∧ (bs.flatMap leaves).length = (ts.flatMap leaves).length ∧
      w.2.2 = log ++ Call.clones (ts.flatMap leaves) (bs.flatMap leaves)) ∧
    (∀ w, s.cloneEach ts (done, (u, log)) = .panic w → ∃ bs cs made, w.1 = done ++ bs ∧ w.2.2 = log ++ cs ∧
      Call.sources cs <+: ts.flatMap leaves ∧ (Call.sources cs).length = (Call.made cs).length + 1 ∧ Call.made cs = bs.flatMap leaves ++ made ∧
      Freed (¬ ok .inline) (Call.gone cs) made) := by
  induction ts generalizing u log done with
  | nil =>
    refine ⟨fun w e => ?_, fun s e => by simp [Elem.cloneEach] at e⟩
    simp only [Elem.cloneEach, M.pure_run, Out.ok.injEq, true_and] at e
    subst e
    exact ⟨[], by simp, rfl, by simp [Call.clones]⟩
  | cons t ts ih =>
    simp only [Elem.cloneEach, M.bind_run, M.onSnd_run]
    cases hx : s.clone t (u, log) with
    | ok b w =>
      obtain ⟨u', log'⟩ := w
      obtain ⟨hl, e⟩ := h.clone_ok hx
      dsimp only at e
      subst e
      simp only [Out.mapState_ok, Out.andThen_ok, M.onFst_run, M.bind_run, M.get_run, M.set_run]
      refine ⟨fun w e => ?_, fun w e => ?_⟩
      · obtain ⟨bs, h1, h2, h3⟩ := (ih _ _ _).1 w e
        refine ⟨b :: bs, by simpa using h1, by simp [hl, h2], ?_⟩
        rw [h3, List.flatMap_cons, List.flatMap_cons, Call.clones_append hl, List.append_assoc]
      · obtain ⟨bs, cs, made, h1, h2, h3, h4, h5, h6⟩ := (ih _ _ _).2 w e
        obtain ⟨m1, m2, m3⟩ := Call.made_clones hl
        refine ⟨b :: bs, Call.clones (leaves t) (leaves b) ++ cs, made, by simpa using h1, by simpa using h2, ?_, ?_, ?_, ?_⟩
        · rw [Call.sources_append, m2, List.flatMap_cons]
          exact (List.prefix_append_right_inj _).2 h3
        · rw [Call.sources_append, Call.made_append, m1, m2, List.length_append, List.length_append, h4, hl]; omega
        · rw [Call.made_append, m1, h5]; simp
        · rw [Call.gone_append, m3]; exact h6
    | panic w =>
      obtain ⟨cs, h1, h2, h3, h4⟩ := h.clone_panic hx
      simp only [Out.mapState_panic, Out.andThen_panic]
      refine ⟨fun s e => by simp at e, fun w' e => ?_⟩
      simp only [Out.panic.injEq] at e
      subst e
      exact ⟨[], cs, Call.made cs, by simp, h1, by simpa using h2.trans (List.prefix_append _ _), h3, by simp, h4⟩
    | _ => simp

theorem Leafy.cloneAll (h : Leafy ok leaves s) {run : List T → M (τ × List (Call A)) Unit}
    (hrun : ∀ ts u log w, run ts (u, log) = .ok () w → ∃ d : List A, w.2 = log ++ d.map .drop ∧ d.Sublist (ts.flatMap leaves) ∧ (¬ ok .inline → d = ts.flatMap leaves))
    (ts : List T) (u : τ) (log : List (Call A)) :
    (∀ bs w, Care.clone s run ts (u, log) = .ok bs w → (bs.flatMap leaves).length = (ts.flatMap leaves).length ∧
      w.2 = log ++ Call.clones (ts.flatMap leaves) (bs.flatMap leaves)) ∧
    (∀ w, Care.clone s run ts (u, log) = .panic w → ∃ cs, w.2 = log ++ cs ∧ Call.sources cs <+: ts.flatMap leaves ∧
      (Call.sources cs).length = (Call.made cs).length + 1 ∧ Freed (¬ ok .inline) (Call.gone cs) (Call.made cs)) := by
  have hc := h.cloneEach ts [] u log
  unfold Care.clone
  cases hx : s.cloneEach ts ([], (u, log)) with
  | ok v w =>
    refine ⟨fun bs w' e => ?_, fun w' e => by simp at e⟩
    obtain ⟨bs', h1, h2, h3⟩ := hc.1 w hx
    simp only [Out.ok.injEq] at e
    obtain ⟨rfl, rfl⟩ := e
    rw [h1]
    exact ⟨h2, h3⟩
  | panic w =>
    obtain ⟨bs, cs, made, h1, h2, h3, h4, h5, h6, h7⟩ := hc.2 w hx
    obtain ⟨w1, u', log'⟩ := w
    dsimp only at h1 h2 ⊢
    rw [List.nil_append] at h1
    rw [h1, h2]
    cases hr : run bs (u', log ++ cs) with
    | ok v w =>
      refine ⟨fun bs w' e => by simp at e, fun w' e => ?_⟩
      simp only [Out.panic.injEq] at e
      subst e
      obtain ⟨d, d1, d2, d3⟩ := hrun _ _ _ _ hr
      obtain ⟨m1, m2, m3⟩ := Call.made_drops d
      refine ⟨cs ++ d.map .drop, by simpa using d1, ?_, ?_, ?_⟩
      · rw [Call.sources_append, m2, List.append_nil]; exact h3
      · rw [Call.sources_append, Call.made_append, m1, m2]; simpa using h4
      · rw [Call.gone_append, Call.made_append, m1, m3, List.append_nil, h5]
        obtain ⟨g, g1, g2⟩ := h6
        refine ⟨⟨d ++ g, ?_, d2.append g2⟩, fun hi => ?_⟩
        · exact (List.Perm.append_left d g1).trans List.perm_append_comm
        · rw [d3 hi]; exact List.perm_append_comm.trans (List.Perm.append_left _ (h7 hi))
    | _ => simp
  | _ => simp
end

theorem Nested.leafy {ok : Kind → Prop} {e : Elem (τ × List (Call A)) X} {s : Elem (τ × List (Call A)) T} {V : X → T → Prop} {leaves : T → List A}
    (h : Nested E el.traced ok e s V leaves) : Leafy ok leaves s := by
  induction h with
  | item =>
    refine ⟨?_, ?_, ?_, ?_⟩
    · intro t u log w hw
      rw [Elem.traced_drop] at hw
      cases hx : el.drop t u <;> rw [hx] at hw <;> simp at hw
      subst hw; simp
    · intro t u log w hw
      rw [Elem.traced_drop] at hw
      cases hx : el.drop t u <;> rw [hx] at hw <;> simp at hw
      subst hw; exact ⟨[t], List.Sublist.refl _, by simp, fun _ _ => rfl⟩
    · intro t u log t' w hw
      rw [Elem.traced_clone] at hw
      cases hx : el.clone t u <;> rw [hx] at hw <;> simp at hw
      obtain ⟨rfl, rfl⟩ := hw
      simp [Call.clones]
    · intro t u log w hw
      rw [Elem.traced_clone] at hw
      cases hx : el.clone t u <;> rw [hx] at hw <;> simp at hw
      subst hw
      exact ⟨[.clone t none], rfl, by simp [Call.sources], by simp [Call.sources, Call.made], ⟨[], by simp [Call.gone], by simp⟩,
        fun _ => by simp [Call.gone, Call.made]⟩
  | chunk h _ _ ih =>
    refine ⟨?_, ?_, ?_, ?_⟩
    · intro t u log w hw; exact (ih.dropSlice t u log).1 w hw
    · intro t u log w hw; exact (ih.dropSlice t u log).2 w hw
    · intro t u log t' w hw
      exact (ih.cloneAll (fun ts u log w hw => ⟨_, (ih.dropSlice ts u log).1 w hw, List.Sublist.refl _, fun _ => rfl⟩) t u log).1 t' w hw
    · intro t u log w hw
      exact (ih.cloneAll (fun ts u log w hw => ⟨_, (ih.dropSlice ts u log).1 w hw, List.Sublist.refl _, fun _ => rfl⟩) t u log).2 w hw
  | ring h hk _ _ ih =>
    refine ⟨?_, ?_, ?_, ?_⟩
    · intro t u log w hw; exact (ih.dropEach t u log).1 w hw
    · intro t u log w hw
      obtain ⟨d, h1, h2⟩ := (ih.dropEach t u log).2 w hw
      exact ⟨d, h1, h2, fun hn => absurd hk hn⟩
    · intro t u log t' w hw
      exact (ih.cloneAll (fun ts u log w hw => ⟨_, (ih.dropEach ts u log).1 w hw, List.Sublist.refl _, fun _ => rfl⟩) t u log).1 t' w hw
    · intro t u log w hw
      exact (ih.cloneAll (fun ts u log w hw => ⟨_, (ih.dropEach ts u log).1 w hw, List.Sublist.refl _, fun _ => rfl⟩) t u log).2 w hw
  | @sparse _ _ _ s' _ _ _ h hk ih =>
    refine ⟨?_, ?_, ?_, ?_⟩
    · intro t u log w hw; exact (ih.dropEach t.2 u log).1 w hw
    · intro t u log w hw
      obtain ⟨d, h1, h2⟩ := (ih.dropEach t.2 u log).2 w hw
      exact ⟨d, h1, h2, fun _ hn => absurd hk hn⟩
    · intro t u log t' w hw
      have := (ih.cloneAll (fun ts u log w hw => ⟨_, (ih.dropEach ts u log).1 w hw, List.Sublist.refl _, fun _ => rfl⟩) t.2 u log).1
      simp only [Elem.indexed, M.bind_run] at hw
      cases hx : Care.clone s' s'.dropEach t.2 (u, log) <;> rw [hx] at hw <;> simp at hw
      obtain ⟨rfl, rfl⟩ := hw
      exact this _ _ hx
    · intro t u log w hw
      have := (ih.cloneAll (fun ts u log w hw => ⟨_, (ih.dropEach ts u log).1 w hw, List.Sublist.refl _, fun _ => rfl⟩) t.2 u log).2
      simp only [Elem.indexed, M.bind_run] at hw
      cases hx : Care.clone s' s'.dropEach t.2 (u, log) <;> rw [hx] at hw <;> simp at hw
      subst hw
      exact this _ hx
  | @inline _ T' _ _ _ _ lv _ _ h hk _ ih =>
    have hr : ∀ (ts : List T') (u : τ) (log : List (Call A)) (w : τ × List (Call A)), (pure () : M (τ × List (Call A)) Unit) (u, log) = .ok () w →
        ∃ d : List A, w.2 = log ++ d.map .drop ∧ d.Sublist (ts.flatMap lv) ∧ (¬ ok .inline → d = ts.flatMap lv) := fun ts u log w hw => by
      simp only [M.pure_run, Out.ok.injEq, true_and] at hw
      subst hw
      exact ⟨[], by simp, List.nil_sublist _, fun hn => absurd hk hn⟩
    refine ⟨?_, ?_, ?_, ?_⟩
    · intro t u log w hw; exact (ih.dropSlice t u log).1 w hw
    · intro t u log w hw; exact (ih.dropSlice t u log).2 w hw
    · intro t u log t' w hw; exact (ih.cloneAll (run := fun _ => pure ()) hr t u log).1 t' w hw
    · intro t u log w hw; exact (ih.cloneAll (run := fun _ => pure ()) hr t u log).2 w hw

/-- C111. Destroying containers of containers, to any depth, destroys every plain item in them exactly once, in order, if it returns.  If it panics
(a destructor of a plain item did), none is destroyed twice and the order is kept; and all are destroyed if none of the containers is a ring buffer or a sparse
chunk. -/
theorem C111_drop {ok : Kind → Prop} {e : Elem (τ × List (Call A)) X} {s : Elem (τ × List (Call A)) T} {V : X → T → Prop} {leaves : T → List A}
    (h : Nested E el.traced ok e s V leaves) {x : X} {t : T} (hx : V x t) (u : τ) (log : List (Call A)) :
    (∀ w, e.drop x (u, log) = .ok () w → w.2 = log ++ (leaves t).map .drop) ∧
    (∀ w, e.drop x (u, log) = .panic w → ∃ d : List A, d.Sublist (leaves t) ∧ w.2 = log ++ d.map .drop ∧
      (¬ ok .ring → ¬ ok .sparse → d = leaves t)) := by
  have hs := (C111_nested h).1 hx (u, log)
  refine ⟨fun w e => ?_, fun w e => ?_⟩
  · obtain ⟨_, w', e1, -, rfl⟩ := hs.ok_inv e
    exact h.leafy.drop_ok e1
  · obtain ⟨w', e1, rfl⟩ := hs.panic_inv e
    exact h.leafy.drop_panic e1

/-- C111. Cloning containers of containers, to any depth, clones every plain item in them exactly once, in order, and destroys nothing, if it returns; the
clone is nested in the same way and its plain items are the clones, in order.  If it panics, one plain item's `clone` did, no item after it was cloned, and
of the clones made none is destroyed twice; all of them are destroyed, once, if none of the containers is an inline array. -/
theorem C111_clone {ok : Kind → Prop} {e : Elem (τ × List (Call A)) X} {s : Elem (τ × List (Call A)) T} {V : X → T → Prop} {leaves : T → List A}
    (h : Nested E el.traced ok e s V leaves) {x : X} {t : T} (hx : V x t) (u : τ) (log : List (Call A)) :
    (∀ y w, e.clone x (u, log) = .ok y w → ∃ t', V y t' ∧ (leaves t').length = (leaves t).length ∧
      w.2 = log ++ Call.clones (leaves t) (leaves t')) ∧
    (∀ w, e.clone x (u, log) = .panic w → ∃ cs, w.2 = log ++ cs ∧ Call.sources cs <+: leaves t ∧
      (Call.sources cs).length = (Call.made cs).length + 1 ∧ Freed (¬ ok .inline) (Call.gone cs) (Call.made cs)) := by
  have hs := (C111_nested h).2 hx (u, log)
  refine ⟨fun y w e => ?_, fun w e => ?_⟩
  · obtain ⟨t', w', e1, hv, rfl⟩ := hs.ok_inv e
    exact ⟨t', hv, h.leafy.clone_ok e1⟩
  · obtain ⟨w', e1, rfl⟩ := hs.panic_inv e
    exact h.leafy.clone_panic e1

/-! ### Destroying as one list -/

theorem Elem.dropEach_append (el : Elem τ A) (l r : List A) : el.dropEach (l ++ r) = (do el.dropEach l; el.dropEach r) := by
  induction l with
  | nil => rfl
  | cons a l ih =>
    funext u
    simp only [List.cons_append, Elem.dropEach, M.bind_run, ih]
    cases el.drop a u <;> simp

/-- In a cleanup a panic is an abort. -/
def Out.noPanic {σ α : Type} : Out σ α → Out σ α
  | .panic _ => .abort
  | o => o

theorem M.onUnwind_congr {σ α : Type} {x : M σ α} {c c' : M σ Unit} (h : ∀ s, (c s).noPanic = (c' s).noPanic) : M.onUnwind x c = M.onUnwind x c' := by
  funext s
  simp only [M.onUnwind]
  cases x s with
  | panic w =>
    have := h w
    cases hx : c w <;> cases hy : c' w <;> rw [hx, hy] at this <;> simp_all [Out.noPanic]
  | _ => rfl

/-- The destructor ends: it returns, panics or aborts. -/
def Elem.Ends (el : Elem τ A) : Prop := ∀ a u, el.drop a u ≠ .ub ∧ el.drop a u ≠ .diverge

theorem Elem.Ends.dropEach (h : el.Ends) (l : List A) (u : τ) : el.dropEach l u ≠ .ub ∧ el.dropEach l u ≠ .diverge := by
  induction l generalizing u with
  | nil => simp [Elem.dropEach]
  | cons a l ih =>
    simp only [Elem.dropEach, M.bind_run]
    have := h a u
    cases hx : el.drop a u <;> simp_all

theorem Elem.Ends.slice_noPanic (h : el.Ends) (l : List A) (u : τ) : (el.dropSlice l u).noPanic = (el.dropEach l u).noPanic := by
  induction l generalizing u with
  | nil => rfl
  | cons a l ih =>
    simp only [Elem.dropSlice, Elem.dropEach, M.bind_run, M.onUnwind]
    cases el.drop a u with
    | ok v w => simpa using ih w
    | panic w =>
      have := h.dropEach l w
      cases hx : el.dropEach l w <;> simp_all [Out.noPanic]
    | _ => rfl

theorem Out.noPanic_andThen {σ α β : Type} {x y : Out σ α} {f g : α → σ → Out σ β} (h : x.noPanic = y.noPanic) (hf : ∀ a s, (f a s).noPanic = (g a s).noPanic) :
    (x.andThen f).noPanic = (y.andThen g).noPanic := by
  cases x <;> cases y <;> simp_all [Out.noPanic, Out.andThen]

theorem Elem.dropSlice_append (l r : List A) :
    el.dropSlice (l ++ r) = (do M.onUnwind (el.dropSlice l) (el.dropEach r); el.dropSlice r) := by
  induction l with
  | nil => funext u; simp [Elem.dropSlice, M.onUnwind]
  | cons a l ih =>
    funext u
    simp only [List.cons_append, Elem.dropSlice, M.bind_run, M.onUnwind, ih, Elem.dropEach_append]
    cases el.drop a u with
    | ok v w => simp
    | panic w =>
      dsimp only
      cases el.dropEach l w with
      | ok v w =>
        simp only [Out.andThen_ok]
        cases hr : el.dropEach r w <;> simp [hr]
      | _ => simp
    | _ => simp

theorem Elem.dropEach_flatMap {s : Elem τ T} {leaves : T → List A} (ih : s.drop = fun t => el.dropEach (leaves t)) (ts : List T) :
    s.dropEach ts = el.dropEach (ts.flatMap leaves) := by
  induction ts with
  | nil => rfl
  | cons t ts iht => rw [List.flatMap_cons, Elem.dropEach_append, ← iht, Elem.dropEach, ih]

theorem Elem.dropSlice_flatMap {s : Elem τ T} {leaves : T → List A} (he : el.Ends) (ih : s.drop = fun t => el.dropSlice (leaves t)) (ts : List T) :
    s.dropSlice ts = el.dropSlice (ts.flatMap leaves) := by
  have hcl : ∀ ts u, (Elem.dropEach s ts u).noPanic = (el.dropEach (ts.flatMap leaves) u).noPanic := by
    intro ts
    induction ts with
    | nil => intro u; rfl
    | cons t ts iht =>
      intro u
      rw [List.flatMap_cons, Elem.dropEach_append, Elem.dropEach, M.bind_run, M.bind_run, ih]
      exact Out.noPanic_andThen (he.slice_noPanic _ _) (fun _ _ => iht _)
  induction ts with
  | nil => rfl
  | cons t ts iht => rw [List.flatMap_cons, Elem.dropSlice_append, ← iht, Elem.dropSlice, ih, M.onUnwind_congr (hcl ts)]

/-- C111. Chunks and inline arrays, however nested, are destroyed exactly as the one slice of all their plain items would be: a panicking destructor does not
keep the others from running, a second one aborts (for destructors that end).  Ring buffers and sparse chunks, however nested, are destroyed as one loop over
all their plain items: it stops where a destructor panics. -/
theorem C111_one {ok : Kind → Prop} {e : Elem τ X} {s : Elem τ T} {V : X → T → Prop} {leaves : T → List A} (h : Nested E el ok e s V leaves) {x : X} {t : T}
    (hx : V x t) (u : τ) :
    (¬ ok .ring → ¬ ok .sparse → (∀ a v, el.drop a v ≠ .ub ∧ el.drop a v ≠ .diverge) → e.drop x u = el.dropSlice (leaves t) u) ∧
    (¬ ok .chunk → ¬ ok .inline → e.drop x u = el.dropEach (leaves t) u) := by
  have hs : ∀ {y z : Out τ Unit}, Out.Same Eq Eq y z → y = z := by
    intro y z h; cases y <;> cases z <;> simp_all [Out.Same]
  rw [hs ((C111_nested h).1 hx u)]
  clear hx x hs
  refine ⟨fun h1 h2 he => ?_, fun h1 h2 => ?_⟩
  · suffices s.drop = fun t => el.dropSlice (leaves t) by rw [this]
    replace he : el.Ends := he
    clear t u
    induction h with
    | item => funext a u; simp only [Elem.dropSlice, M.bind_run, M.onUnwind, Elem.dropEach]; cases el.drop a u <;> simp
    | ring _ hk => exact absurd hk h1
    | sparse _ hk => exact absurd hk h2
    | chunk _ _ _ ih | inline _ _ _ ih =>
      funext ts
      exact Elem.dropSlice_flatMap he ih ts
  · suffices s.drop = fun t => el.dropEach (leaves t) by rw [this]
    clear t u
    induction h with
    | item => funext a u; simp only [Elem.dropEach, M.bind_run]; cases el.drop a u <;> simp
    | chunk _ hk => exact absurd hk h1
    | inline _ hk => exact absurd hk h2
    | ring _ _ _ _ ih =>
      funext ts
      exact Elem.dropEach_flatMap ih ts
    | sparse _ _ ih =>
      funext p
      exact Elem.dropEach_flatMap ih p.2

/-! ### C111 is not vacuous -/

/-- A chunk of two ring buffers of two items each. -/
def boxes : Chunk (Ring Nat) :=
  { left := 1, right := 3, mem := (Mem.uninit.put 1 Ring.seam).put 2 { origin := 0, length := 2, mem := (Mem.uninit.put 0 30).put 1 40 } }

/-- C111 is not vacuous: `boxes` shows `[[10, 20], [30, 40]]`; it is destroyed item by item; its clone consists of the clones; and when the last
clone panics, the three clones made are destroyed: first the one in the second buffer, which is not complete, then the two in the first. -/
example : ∃ (s : Elem ((Nat × Nat) × List (Call Nat)) (List (List Nat))) (V : Chunk (Ring Nat) → List (List Nat) → Prop) (leaves : List (List Nat) → List Nat),
    Nested Chunk.dbg64 Chunk.fussy.traced (fun k => k = .chunk ∨ k = .ring)
      (Chunk.elem Chunk.dbg64 3 (Ring.elem Chunk.dbg64 3 Chunk.fussy.traced)) s V leaves ∧
    V boxes [[10, 20], [30, 40]] ∧ leaves [[10, 20], [30, 40]] = [10, 20, 30, 40] :=
  ⟨_, _, _, .chunk (.ring .item (.inr rfl) (by decide) (by decide)) (.inl rfl) (by decide),
    ⟨_, rfl, .cons ⟨_, ⟨rfl, by decide, by decide⟩, .cons rfl (.cons rfl .nil)⟩ (.cons ⟨_, ⟨rfl, by decide, by decide⟩, .cons rfl (.cons rfl .nil)⟩ .nil)⟩, rfl⟩

example : ((Chunk.elem Chunk.dbg64 3 (Ring.elem Chunk.dbg64 3 Chunk.fussy.traced)).drop boxes ((0, 0), [])).final =
      some ((0, 4), [.drop 10, .drop 20, .drop 30, .drop 40]) ∧
    ((Chunk.elem Chunk.dbg64 3 (Ring.elem Chunk.dbg64 3 Chunk.fussy.traced)).clone boxes ((4, 0), [])).final =
      some ((8, 0), [.clone 10 (some 104), .clone 20 (some 105), .clone 30 (some 106), .clone 40 (some 107)]) ∧
    ((Chunk.elem Chunk.dbg64 3 (Ring.elem Chunk.dbg64 3 Chunk.fussy.traced)).clone boxes ((0, 0), [])).isPanic = true ∧
    ((Chunk.elem Chunk.dbg64 3 (Ring.elem Chunk.dbg64 3 Chunk.fussy.traced)).clone boxes ((0, 0), [])).final =
      some ((3, 3), [.clone 10 (some 100), .clone 20 (some 101), .clone 30 (some 102), .clone 40 none, .drop 102, .drop 100, .drop 101]) := by
  decide +kernel

end Verif
