import Verif.Props.AliasBody
/-
C118: whole methods, with the arguments of their helpers protected while the helpers run.
-/
namespace Verif.Alias
open Verif
variable {σ α β A : Type} {N : Nat} {E : Env} {R : Rules σ} {H : List Arg → Rules σ} {i : σ}

theorem dropAt_body (x : Nat) (b : Nat → Nat) (i : Nat) : (Call.dropAt x i).run R N b =
    (mutPtr R N x (b x) >>= fun p => Body.call (fun _ => R) true p [.slot x i] (.destroy x i) >>= fun _ => pure ()) := by
  simp [Call.run, Body.call, Body.run, Body.destroy]

/-- Without protectors this is the pointer model. -/
theorem runIn_plain (b : Nat → Nat) (c : Call) : c.runIn R (fun _ => R) N b = c.run R N b := by
  cases c <;> simp only [Call.runIn, dropAt_body, slice_body, sliceMut_body, values_body, valuesMut_body, deref_body, derefMut_body] <;>
    simp only [Call.run, setLen, setLenIn, lenOf_body, ptr_body, mutPtr_body, dataConst_body, dataMut_body, readLen_body,
      lenOfIn, ptrIn, mutPtrIn, dataConstIn, dataMutIn, readLenIn]
theorem runCallsIn_plain (b : Nat → Nat) (cs : List Call) : runCallsIn R (fun _ => R) N b cs = runCalls R N b cs := by
  induction cs with
  | nil => rfl
  | cons c cs ih => simp only [runCallsIn, runCalls, runIn_plain, ih]

/-- The rules `H` accept no more than `R`, and do the same. -/
structure Narrows (R : Rules σ) (H : List Arg → Rules σ) : Prop where
  reMut : ∀ gs t cells s r, (H gs).reMut t cells s = some r → R.reMut t cells s = some r
  reShr : ∀ gs t cells s r, (H gs).reShr t cells s = some r → R.reShr t cells s = some r
  raw : ∀ gs t cells s r, (H gs).raw t cells s = some r → R.raw t cells s = some r
  read : ∀ gs t cells s r, (H gs).read t cells s = some r → R.read t cells s = some r
  write : ∀ gs t cells s r, (H gs).write t cells s = some r → R.write t cells s = some r

theorem narrow_bind {m m' : P σ α} {f f' : α → P σ β} (h : ∀ s r, m' s = some r → m s = some r) (k : ∀ a s r, f' a s = some r → f a s = some r) :
    ∀ s r, (m' >>= f') s = some r → (m >>= f) s = some r := by
  intro s r e
  rw [P.bind_run] at e ⊢
  cases hm : m' s with
  | none => rw [hm] at e; simp at e
  | some p => rw [hm] at e; rw [h s p hm]; exact k p.1 p.2 r e

theorem Narrows.body (h : Narrows R H) (body : Body) : ∀ gs ps s r, body.run H gs ps s = some r → body.run (fun _ => R) gs ps s = some r := by
  induction body with
  | ret => exact fun _ _ _ _ e => e
  | read i cells k ih =>
    intro gs ps
    simp only [Body.run]
    cases ps[i]? with
    | none => exact fun _ _ e => e
    | some p => exact narrow_bind (h.read gs p cells) fun _ => ih gs ps
  | write i cells k ih =>
    intro gs ps
    simp only [Body.run]
    cases ps[i]? with
    | none => exact fun _ _ e => e
    | some p => exact narrow_bind (h.write gs p cells) fun _ => ih gs ps
  | reMut i cells k ih =>
    intro gs ps
    simp only [Body.run]
    cases ps[i]? with
    | none => exact fun _ _ e => e
    | some p => exact narrow_bind (h.reMut gs p cells) fun a => ih gs (a :: ps)
  | reShr i cells k ih =>
    intro gs ps
    simp only [Body.run]
    cases ps[i]? with
    | none => exact fun _ _ e => e
    | some p => exact narrow_bind (h.reShr gs p cells) fun a => ih gs (a :: ps)
  | raw i cells k ih =>
    intro gs ps
    simp only [Body.run]
    cases ps[i]? with
    | none => exact fun _ _ e => e
    | some p => exact narrow_bind (h.raw gs p cells) fun a => ih gs (a :: ps)
  | look i cells body k ihb ih =>
    intro gs ps
    simp only [Body.run]
    cases ps[i]? with
    | none => exact fun _ _ e => e
    | some p => exact narrow_bind (h.reShr gs p cells) fun a => narrow_bind (ihb _ _) fun qs => ih gs (qs ++ ps)

theorem Narrows.call (h : Narrows R H) (w : Bool) (t : Tag) (cells : List Cell) (body : Body) :
    ∀ s r, body.call H w t cells s = some r → body.call (fun _ => R) w t cells s = some r := by
  cases w
  · exact narrow_bind (h.reShr [] t cells) fun a => h.body body _ _
  · exact narrow_bind (h.reMut [] t cells) fun a => h.body body _ _

/-- What a function does through its argument makes no argument valid that was not. -/
theorem Lasting.body {Inv : σ → Prop} {gs : List Arg} (h : Lasting R Inv gs) (body : Body) : ∀ hs ps, Fading R Inv gs (body.run (fun _ => R) hs ps) := by
  have fb : ∀ {α β : Type} {m : P σ α} {f : α → P σ β}, Fading R Inv gs m → (∀ a, Fading R Inv gs (f a)) → Fading R Inv gs (m >>= f) := by
    intro α β m f hm hf s b s' hi e
    rw [P.bind_run] at e
    cases hx : m s with
    | none => rw [hx] at e; simp at e
    | some p =>
      rw [hx] at e
      obtain ⟨i1, g1⟩ := hm s p.1 p.2 hi hx
      obtain ⟨i2, g2⟩ := hf p.1 p.2 b s' i1 e
      exact ⟨i2, fun ha => g1 (g2 ha)⟩
  have fn : Fading R Inv gs (fun _ => none : P σ (List Tag)) := fun _ _ _ _ e => by cases e
  induction body with
  | ret => exact fun _ _ _ _ _ hi e => by cases e; exact ⟨hi, id⟩
  | read i cells k ih =>
    intro hs ps
    simp only [Body.run]
    cases ps[i]? with
    | none => exact fn
    | some p => exact fb (h.read p cells) fun _ => ih hs ps
  | write i cells k ih =>
    intro hs ps
    simp only [Body.run]
    cases ps[i]? with
    | none => exact fn
    | some p => exact fb (h.write p cells) fun _ => ih hs ps
  | reMut i cells k ih =>
    intro hs ps
    simp only [Body.run]
    cases ps[i]? with
    | none => exact fn
    | some p => exact fb (h.reMut p cells) fun a => ih hs (a :: ps)
  | reShr i cells k ih =>
    intro hs ps
    simp only [Body.run]
    cases ps[i]? with
    | none => exact fn
    | some p => exact fb (h.reShr p cells) fun a => ih hs (a :: ps)
  | raw i cells k ih =>
    intro hs ps
    simp only [Body.run]
    cases ps[i]? with
    | none => exact fn
    | some p => exact fb (h.raw p cells) fun a => ih hs (a :: ps)
  | look i cells body k ihb ih =>
    intro hs ps
    simp only [Body.run]
    cases ps[i]? with
    | none => exact fn
    | some p => exact fb (h.reShr p cells) fun a => fb (ihb _ _) fun qs => ih hs (qs ++ ps)

theorem Lasting.enter {Inv : σ → Prop} {gs : List Arg} (h : Lasting R Inv gs) (w : Bool) (t : Tag) (cells : List Cell) (body : Body) :
    Fading R Inv gs (body.call (fun _ => R) w t cells) := by
  intro s b s' hi e
  have key : ∀ m : P σ Tag, Fading R Inv gs m → (m >>= fun a => body.run (fun _ => R) [⟨a, w, cells⟩] [a]) s = some (b, s') →
      Inv s' ∧ (Alive R gs s' → Alive R gs s) := by
    intro m hm e
    rw [P.bind_run] at e
    cases hx : m s with
    | none => rw [hx] at e; simp at e
    | some p =>
      rw [hx] at e
      obtain ⟨i1, g1⟩ := hm s p.1 p.2 hi hx
      obtain ⟨i2, g2⟩ := h.body body _ _ p.2 b s' i1 e
      exact ⟨i2, fun ha => g1 (g2 ha)⟩
  cases w
  · exact key _ (h.reShr t cells) e
  · exact key _ (h.reMut t cells) e

/-- An operation of the method itself. -/
theorem Watched.same {Inv : σ → Prop} {gs : List Arg} {m : P σ α} (h : Fading R Inv gs m) : Watched R Inv gs m m where
  fades := h
  fwd _ _ _ _ e _ := e
  back _ _ e := e

/-- In a state where `b x` may be used, protecting a helper's argument derived from it changes nothing. -/
def Transparent (R : Rules σ) (H : List Arg → Rules σ) (Inv : σ → Prop) : Prop :=
  ∀ s, Inv s → ∀ (w : Bool) (t : Tag) (cells : List Cell), R.Usable s t cells → ∀ body : Body, body.call H w t cells s = body.call (fun _ => R) w t cells s

/-- A pointer whose item has been destroyed through it could be written through. -/
def Touches (R : Rules σ) (Inv : σ → Prop) : Prop :=
  ∀ s, Inv s → ∀ p x i r, (Body.destroy x i).call (fun _ => R) true p [.slot x i] s = some r → R.Usable s p [.slot x i]

section
variable {Inv : σ → Prop} {b : Nat → Tag} (hd : Touches R Inv) (hl : Lasting R Inv (selves N b [0, 1])) (hn : Narrows R H) (ht : Transparent R H Inv)
include hl hn ht

theorem watched_call {x : Nat} (hx : x < 2) (w : Bool) (body : Body) :
    Watched R Inv (selves N b [0, 1]) (body.call (fun _ => R) w (b x) (whole x N)) (body.call H w (b x) (whole x N)) where
  fades := hl.enter w (b x) (whole x N) body
  fwd s a s' hi e ha := by
    rw [ht s hi w (b x) (whole x N) ?_ body]
    · exact e
    · have h1 := (hl.enter w (b x) (whole x N) body s a s' hi e).2 ha
      have h2 : (Arg.mk (b x) true (whole x N)).alive R s = true := by
        simp only [Alive, selves, List.map_cons, List.map_nil, List.all_cons, List.all_nil, Bool.and_true, Bool.and_eq_true] at h1
        match x, hx with
        | 0, _ => exact h1.1
        | 1, _ => exact h1.2
      simp only [Arg.alive, List.all_eq_true, if_true] at h2
      intro c hc
      obtain ⟨r, e⟩ := Option.isSome_iff_exists.1 (h2 c hc)
      exact ⟨r.2, e⟩
  back s r e := hn.call w (b x) (whole x N) body s r e

include hd
theorem watched_destroy (p x i : Nat) : Watched R Inv (selves N b [0, 1]) ((Body.destroy x i).call (fun _ => R) true p [.slot x i])
    ((Body.destroy x i).call H true p [.slot x i]) where
  fades := hl.enter true p [.slot x i] (.destroy x i)
  fwd s a s' hi e _ := by
    rw [ht s hi true p [.slot x i] (hd s hi p x i _ e) (.destroy x i)]
    exact e
  back s r e := hn.call true p [.slot x i] (.destroy x i) s r e

theorem watched_runIn (c : Call) (hc : ∀ x ∈ c.boxes, x < 2) :
    Watched R Inv (selves N b [0, 1]) (c.run R N b) (c.runIn R H N b) := by
  rw [← runIn_plain]
  cases c <;> simp only [Call.boxes, List.mem_cons, List.not_mem_nil, or_false, forall_eq, forall_eq_or_imp] at hc <;>
    (try (have hc1 := And.left hc; have hc2 := And.right hc)) <;>
    simp only [Call.runIn, lenOfIn, ptrIn, mutPtrIn, dataConstIn, dataMutIn, readLenIn, setLenIn, bind_assoc, pure_bind] <;>
    repeat' with_reducible first
      | apply Watched.ite
      | exact Watched.pure _
      | exact watched_call hl hn ht (by assumption) _ _
      | exact watched_destroy hd hl hn ht _ _ _
      | exact .same (hl.reMut _ _)
      | exact .same (hl.reShr _ _)
      | exact .same (hl.raw _ _)
      | exact .same (hl.read _ _)
      | exact .same (hl.write _ _)
      | refine Watched.bind ?_ fun _ => ?_

theorem watched_runCallsIn (cs : List Call) (hc : ∀ c ∈ cs, ∀ x ∈ c.boxes, x < 2) :
    Watched R Inv (selves N b [0, 1]) (runCalls R N b cs) (runCallsIn R H N b cs) := by
  induction cs with
  | nil => exact .pure _
  | cons c cs ih =>
    exact .bind (watched_runIn hd hl hn ht c (hc c (by simp))) fun _ => ih fun c' h => hc c' (List.mem_cons_of_mem _ h)

end

/-- From `s`: protecting the arguments of the helpers changes nothing, and the calls are accepted exactly if `policy`. -/
def HelpedExactly (R : Rules σ) (H : List Arg → Rules σ) (N : Nat) (b : Nat → Nat) (calls : List Call) (policy : Prop) (s : σ) : Prop :=
  runCallsIn R H N b calls s = runCalls R N b calls s ∧ ((runCallsIn R H N b calls s).isSome ↔ policy)

theorem CallsExactly.helped {Inv : σ → Prop} {s : σ} {b : Nat → Nat} {calls : List Call} {policy : Prop}
    (h : CallsExactly R i N b calls policy s) (hd : Touches R Inv) (hl : Lasting R Inv (selves N b [0, 1])) (hn : Narrows R H) (ht : Transparent R H Inv) (hi : Inv s)
    (hb : ∀ x, x < 2 → R.Usable s (b x) (whole x N)) (hc : ∀ c ∈ calls, ∀ x ∈ c.boxes, x < 2) : HelpedExactly R H N b calls policy s := by
  have e : runCallsIn R H N b calls s = runCalls R N b calls s := by
    have w := watched_runCallsIn hd hl hn ht calls hc
    cases hr : runCalls R N b calls s with
    | none =>
      cases hg : runCallsIn R H N b calls s with
      | none => rfl
      | some r => rw [w.back s r hg] at hr; cases hr
    | some r => exact w.fwd s () r.2 hi hr (alive_of_usable fun x hx => (h.2 r.2 hr).2 x (hb x hx))
  exact ⟨e, by rw [e]; exact h.1⟩

theorem Lasting.reach {Inv : σ → Prop} {gs : List Arg} (h : Lasting R Inv gs) : Lasting R (fun s => Reach R i s ∧ Inv s) gs where
  reMut t cells s a s' hi e := ⟨⟨.reMut hi.1 e, (h.reMut t cells s a s' hi.2 e).1⟩, (h.reMut t cells s a s' hi.2 e).2⟩
  reShr t cells s a s' hi e := ⟨⟨.reShr hi.1 e, (h.reShr t cells s a s' hi.2 e).1⟩, (h.reShr t cells s a s' hi.2 e).2⟩
  raw t cells s a s' hi e := ⟨⟨.raw hi.1 e, (h.raw t cells s a s' hi.2 e).1⟩, (h.raw t cells s a s' hi.2 e).2⟩
  read t cells s a s' hi e := ⟨⟨.read hi.1 e, (h.read t cells s a s' hi.2 e).1⟩, (h.read t cells s a s' hi.2 e).2⟩
  write t cells s a s' hi e := ⟨⟨.write hi.1 e, (h.write t cells s a s' hi.2 e).1⟩, (h.write t cells s a s' hi.2 e).2⟩

theorem guarding_narrow {gs : List Arg} {m m' : P σ α} (h : ∀ s r, m' s = some r → m s = some r) : ∀ s r, guarding R gs m' s = some r → m s = some r := by
  intro s r e
  simp only [guarding] at e
  cases hm : m' s with
  | none => rw [hm] at e; simp at e
  | some p =>
    rw [hm] at e
    dsimp only at e
    split at e
    · cases e; exact h s _ hm
    · simp at e

theorem narrows_guarded : Narrows R R.guarded where
  reMut _ _ _ := guarding_narrow fun _ _ e => e
  reShr _ _ _ := guarding_narrow fun _ _ e => e
  raw _ _ _ := guarding_narrow fun _ _ e => e
  read _ _ _ := guarding_narrow fun _ _ e => e
  write _ _ _ := guarding_narrow fun _ _ e => e

theorem TB.narrows : Narrows TB.rules TB.protecting where
  reMut _ t cells := guarding_narrow (TB.Stricter.op t cells _)
  reShr _ t cells := guarding_narrow (TB.Stricter.op t cells _)
  raw _ t cells := guarding_narrow (m' := TB.rules.raw t cells) fun _ _ e => e
  read _ t cells := guarding_narrow (TB.Stricter.op t cells _)
  write _ t cells := guarding_narrow (TB.Stricter.op t cells _)

theorem SB.touches : Touches SB.rules fun _ => True := by
  intro s _ p x i r e
  simp only [Body.call, if_true] at e
  rw [P.bind_run] at e
  cases h : SB.rules.reMut p [.slot x i] s with
  | none => rw [h] at e; simp at e
  | some q =>
    obtain ⟨-, -, -, h3⟩ := SB.reMut_inv (n := q.1) (s' := q.2) h
    intro c hc
    have := h3 c hc
    cases hx : Stack.write p (s.stacks c) with
    | none => rw [hx] at this; cases this
    | some st =>
      have h4 : (SB.rules.write p [c] s).isSome = true := by
        rw [SB.write_run, SB.each]
        simp [hx]
      obtain ⟨z, hz⟩ := Option.isSome_iff_exists.1 h4
      exact ⟨z.2, hz⟩

theorem TB.touches {k : Nat} : Touches TB.rules (Reach TB.rules (TB.start k)) := by
  intro s hs p x i r e
  simp only [Body.call, if_true, Body.run, Body.destroy, List.getElem?_cons_zero] at e
  rw [P.bind_run] at e
  cases h1 : TB.rules.reMut p [.slot x i] s with
  | none => rw [h1] at e; simp at e
  | some q =>
    rw [h1] at e
    dsimp only [Option.bind_some] at e
    rw [P.bind_run] at e
    cases h2 : TB.rules.read q.1 [.slot x i] q.2 with
    | none => rw [h2] at e; simp at e
    | some q2 =>
      rw [h2] at e
      dsimp only [Option.bind_some] at e
      rw [P.bind_run] at e
      cases h3 : TB.rules.write q.1 [.slot x i] q2.2 with
      | none => rw [h3] at e; simp at e
      | some q3 =>
        obtain ⟨m1, m2, m3, m4, m5⟩ := TB.make_inv (n := q.1) (s' := q.2) h1
        have hi : TB.Issued [⟨p, true, [.slot x i]⟩] s := by
          intro g hg
          simp only [List.mem_singleton] at hg
          subst hg
          exact ⟨m1, TB.Reach.wf hs p m1⟩
        obtain ⟨i1, a1⟩ := (TB.lasting _).reMut p _ s q.1 q.2 hi h1
        obtain ⟨i2, a2⟩ := (TB.lasting _).read q.1 _ q.2 q2.1 q2.2 i1 h2
        have hk : q2.2.up = q.2.up ∧ q2.2.next = q.2.next := by
          simp only [TB.rules] at h2
          cases hx : TB.access false q.1 [.slot x i] q.2 with
          | none => simp [hx] at h2
          | some z =>
            simp only [hx, Option.map_some, Option.some.injEq] at h2
            subst h2
            exact TB.access_keeps hx
        have hw : ∀ u ∈ q2.2.up q.1, ((q2.2.perm u (.slot x i)).child true).isSome = true := by
          simp only [TB.rules] at h3
          cases hx : TB.access true q.1 [.slot x i] q2.2 with
          | none => simp [hx] at h3
          | some z => exact (TB.access_inv hx).2 _ (by simp)
        have ha : Alive TB.rules [⟨p, true, [.slot x i]⟩] q2.2 := by
          simp only [Alive, List.all_eq_true, List.mem_singleton, forall_eq, TB.alive_iff]
          refine ⟨by rw [hk.2, m3]; exact Nat.lt_succ_of_lt m1, fun u hu => hw u ?_⟩
          rw [hk.1] at hu ⊢
          rw [m5 p m1] at hu
          rw [m4]
          exact List.mem_cons_of_mem _ hu
        have hb := a1 (a2 ha)
        simp only [Alive, List.all_cons, List.all_nil, Bool.and_true, Arg.alive, if_true] at hb
        intro c hc
        rw [List.mem_singleton] at hc
        subst hc
        obtain ⟨z, hz⟩ := Option.isSome_iff_exists.1 hb
        exact ⟨z.2, hz⟩

theorem CallsExactly.helped_stacked {k : Nat} {s : SB} (hs : Reach SB.rules (SB.start k) s) {b : Nat → Nat} {calls : List Call} {policy : Prop}
    (hb : ∀ x, x < 2 → SB.rules.Usable s (b x) (whole x N)) (hc : ∀ c ∈ calls, ∀ x ∈ c.boxes, x < 2)
    (h : CallsExactly SB.rules (SB.start k) N b calls policy s) : HelpedExactly SB.rules SB.rules.guarded N b calls policy s :=
  h.helped (fun s _ => SB.touches s trivial) (SB.lasting _).reach narrows_guarded (fun _ hi w t cells _ body => C118_helper_stacked_borrows hi.1 w t cells body)
    ⟨hs, SB.issued_selves (SB.Reach.wf hs) hb⟩ hb hc
theorem CallsExactly.helped_tree {k : Nat} {s : TB} (hs : Reach TB.rules (TB.start k) s) {b : Nat → Nat} {calls : List Call} {policy : Prop}
    (hb : ∀ x, x < 2 → TB.rules.Usable s (b x) (whole x N)) (hc : ∀ c ∈ calls, ∀ x ∈ c.boxes, x < 2)
    (h : CallsExactly TB.rules (TB.start k) N b calls policy s) : HelpedExactly TB.rules TB.protecting N b calls policy s :=
  h.helped (fun s hi => TB.touches s hi.1) (TB.lasting _).reach TB.narrows (fun _ hi w t cells hu body => C118_helper_tree_borrows hi.1 w t cells (fun _ => hu) body)
    ⟨hs, TB.issued_selves (TB.Reach.wf hs) hb⟩ hb hc

/-! ### C118, for whole methods: the arguments of their helpers stay valid too -/

theorem C118_chunk_helpers_tree_borrows {k : Nat} {s : TB} (hs : Reach TB.rules (TB.start k) s) {c d : Chunk A} {l l' : List A} (hN : 2 * N < E.W)
    (h : Chunk.View E N c l) (h' : Chunk.View E N d l') (b : Nat → Nat) (hb : ∀ x, x < 2 → TB.rules.Usable s (b x) (whole x N)) (m : ChunkMethod) :
    HelpedExactly TB.rules TB.protecting N b (m.calls N c.left c.right d.left d.right) True s :=
  (C100_chunk_tree_borrows hs hN h h' b hb m).helped_tree hs hb (m.inBoxes _ _ _ _)
theorem C118_chunk_helpers_stacked_borrows {k : Nat} {s : SB} (hs : Reach SB.rules (SB.start k) s) {c d : Chunk A} {l l' : List A} (hN : 2 * N < E.W)
    (h : Chunk.View E N c l) (h' : Chunk.View E N d l') (b : Nat → Nat) (hb : ∀ x, x < 2 → SB.rules.Usable s (b x) (whole x N)) (m : ChunkMethod) :
    HelpedExactly SB.rules SB.rules.guarded N b (m.calls N c.left c.right d.left d.right) (¬m.Shifts N c.left c.right d.left d.right) s :=
  (C100_chunk_stacked_borrows_partial hs hN h h' b hb m).helped_stacked hs hb (m.inBoxes _ _ _ _)
theorem C118_inline_helpers_tree_borrows {k : Nat} {s : TB} (hs : Reach TB.rules (TB.start k) s) {n : Nat} (hn : n ≤ N) (b : Nat → Nat)
    (hb : ∀ x, x < 2 → TB.rules.Usable s (b x) (whole x N)) (m : InlineMethod) : HelpedExactly TB.rules TB.protecting N b (m.calls N n) True s :=
  (C100_inline_tree_borrows hs hn b hb m).helped_tree hs hb (m.inBoxes _)
theorem C118_inline_helpers_stacked_borrows {k : Nat} {s : SB} (hs : Reach SB.rules (SB.start k) s) {n : Nat} (hn : n ≤ N) (b : Nat → Nat)
    (hb : ∀ x, x < 2 → SB.rules.Usable s (b x) (whole x N)) (m : InlineMethod) :
    HelpedExactly SB.rules SB.rules.guarded N b (m.calls N n) (¬m.Shifts n) s :=
  (C100_inline_stacked_borrows_partial hs hn b hb m).helped_stacked hs hb (m.inBoxes _)
theorem C118_ring_helpers_tree_borrows {k : Nat} {s : TB} (hs : Reach TB.rules (TB.start k) s) {c d : Ring A} {l l' : List A} (hW : 2 * N < E.W)
    (h : Ring.View E N c l) (h' : Ring.View E N d l') (b : Nat → Nat) (hb : ∀ x, x < 2 → TB.rules.Usable s (b x) (whole x N)) (m : RingMethod) :
    HelpedExactly TB.rules TB.protecting N b (m.calls N c.origin c.length d.origin d.length) True s := by
  obtain ⟨h1, h2, h3, -⟩ := h.rep hW
  have hf := m.fine (n' := d.length) h1 (h2 ▸ h3) (h'.rep hW).org
  exact (C102_ring_tree_borrows hs hW h h' b hb m).helped_tree hs hb fun c hc => (hf c hc).2.1
theorem C118_ring_helpers_stacked_borrows {k : Nat} {s : SB} (hs : Reach SB.rules (SB.start k) s) {c d : Ring A} {l l' : List A} (hW : 2 * N < E.W)
    (h : Ring.View E N c l) (h' : Ring.View E N d l') (b : Nat → Nat) (hb : ∀ x, x < 2 → SB.rules.Usable s (b x) (whole x N)) (m : RingMethod) :
    HelpedExactly SB.rules SB.rules.guarded N b (m.calls N c.origin c.length d.origin d.length) True s := by
  obtain ⟨h1, h2, h3, -⟩ := h.rep hW
  have hf := m.fine (n' := d.length) h1 (h2 ▸ h3) (h'.rep hW).org
  exact (C102_ring_stacked_borrows hs hW h h' b hb m).helped_stacked hs hb fun c hc => (hf c hc).2.1
theorem C118_sparse_helpers_tree_borrows {k : Nat} {s : TB} (hs : Reach TB.rules (TB.start k) s) (c : Sparse A) (b : Nat → Nat)
    (hb : ∀ x, x < 2 → TB.rules.Usable s (b x) (whole x N)) (m : SparseMethod) : HelpedExactly TB.rules TB.protecting N b (m.calls N c.map) True s :=
  (C102_sparse_tree_borrows hs c b hb m).helped_tree hs hb fun c' hc => (m.fine (N := N) c.map c' hc).2.1
theorem C118_sparse_helpers_stacked_borrows {k : Nat} {s : SB} (hs : Reach SB.rules (SB.start k) s) (c : Sparse A) (b : Nat → Nat)
    (hb : ∀ x, x < 2 → SB.rules.Usable s (b x) (whole x N)) (m : SparseMethod) :
    HelpedExactly SB.rules SB.rules.guarded N b (m.calls N c.map) True s :=
  (C102_sparse_stacked_borrows hs c b hb m).helped_stacked hs hb fun c' hc => (m.fine (N := N) c.map c' hc).2.1

/-! ### The theorems are not vacuous -/

/-- The hypotheses hold of a buffer that wraps. -/
example : HelpedExactly SB.rules SB.rules.guarded 3 id
    (RingMethod.calls 3 Ring.seam.origin Ring.seam.length Ring.seam.origin Ring.seam.length (.insert 1)) True (SB.start 2) :=
  C118_ring_helpers_stacked_borrows (E := Chunk.dbg64) (l := [10, 20]) (l' := [10, 20]) .init (by decide) ⟨rfl, by decide, by decide⟩
    ⟨rfl, by decide, by decide⟩ id (fun _ hx => SB.start_usable hx) _
/-- Every kind of call, accepted with the helpers' arguments protected. -/
example : (runCallsIn TB.rules TB.protecting 3 id (.copyWithin 0 0 1 2 :: .inlineRemove 1 0 3 :: everyCall) (TB.start 2)).isSome = true := by decide +kernel
example : (runCallsIn SB.rules SB.rules.guarded 3 id everyCall (SB.start 2)).isSome = true := by decide +kernel

end Verif.Alias
