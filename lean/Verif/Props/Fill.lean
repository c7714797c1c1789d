import Verif.Fill
import Verif.Props.CareChunk
import Verif.Props.CareRing
import Verif.Props.CareInline
import Verif.Props.CareSparse
import Verif.Props.Endless
/-
C117: filling a container from an iterator, when the iterator and the elements have code of their own, acting on the same state.
-/
namespace Verif
variable {A B σ τ : Type}

/-- The container, beside the user's state, shows what the list is; the user's state is the same. -/
def Beside {C D : Type} (V : C → D → Prop) (s : C × τ) (t : D × τ) : Prop := V s.1 t.1 ∧ s.2 = t.2

namespace Fill
variable {V : σ → List A → Prop} {cap : Nat} {el : Elem τ A} {src : SourceBy τ A}

/-- What pushing an owned value does. -/
def Pushes (V : σ → List A → Prop) (cap : Nat) (el : Elem τ A) (push : A → M (σ × τ) Unit) : Prop :=
  ∀ c l, V c l → ∀ a u, Out.Same Eq (Beside V) (push a (c, u))
    (if l.length < cap then .ok () (l ++ [a], u) else refuse el a (l, u))

theorem Pushes.of_ref {push : A → M σ Unit} (h : ∀ c l, V c l → ∀ a, Ref V (push a c) (Spec.pushBack cap a l)) :
    Pushes V cap el (fun a => M.onUnwind (M.onFst (push a)) (M.onSnd (el.drop a))) := by
  intro c l hc a u
  have := h c l hc a
  unfold Spec.pushBack at this
  simp only [M.onUnwind, M.onFst_run]
  split at this
  · obtain ⟨c', e, h'⟩ := this.of_ok rfl
    rw [e, if_pos (by assumption)]
    exact ⟨rfl, h', rfl⟩
  · obtain ⟨c', e, h'⟩ := this.of_panic rfl
    rw [e, if_neg (by assumption)]
    simp only [Out.mapState_panic, refuse, M.onUnwind, M.onSnd_run, M.panic_run]
    cases el.drop a u <;> simp [Out.Same, Beside, h']

theorem pull_same {C D α β : Type} {R : (C × τ) → (D × τ) → Prop} {W : α → β → Prop} {x : M τ B} {f : B → M (C × τ) α} {g : B → M (D × τ) β} {c : C} {d : D} {u : τ}
    (hp : ∀ u', R (c, u') (d, u')) (h : ∀ o u', Out.Same W R (f o (c, u')) (g o (d, u'))) :
    Out.Same W R ((M.onSnd x >>= f) (c, u)) ((M.onSnd x >>= g) (d, u)) := by
  simp only [M.bind_run, M.onSnd_run]
  cases x u with
  | ok o u' => exact h o u'
  | panic u' => exact hp u'
  | _ => trivial

theorem unwind_same {C D : Type} {V : C → D → Prop} {x : M (C × τ) Unit} {y : M (D × τ) Unit} {z : M τ Unit} {s : C × τ} {t : D × τ}
    (h : Out.Same Eq (Beside V) (x s) (y t)) : Out.Same Eq (Beside V)
      ((do M.onUnwind x (M.onSnd z); M.onSnd z : M (C × τ) Unit) s) ((do M.onUnwind y (M.onSnd z); M.onSnd z : M (D × τ) Unit) t) := by
  simp only [M.bind_run, M.onUnwind]
  cases hx : x s <;> cases hy : y t <;> rw [hx, hy] at h <;> first | exact (h : False).elim | trivial | skip
  · rename_i s' _ t'
    obtain ⟨-, h1, h2⟩ := h
    simp only [Out.andThen_ok, M.onSnd_run, h2]
    cases z t'.2 <;> simp [Out.Same, Beside, h1]
  · rename_i s' t'
    obtain ⟨h1, h2⟩ := h
    simp only [M.onSnd_run, h2]
    cases z t'.2 <;> simp [Out.Same, Beside, h1]

theorem making_same {C D : Type} {V : C → D → Prop} {x : M (C × τ) Unit} {y : M (D × τ) Unit} {dtor : M (C × τ) Unit} {run : D → M τ Unit} {c : C} {d : D} {u : τ}
    (h : Out.Same Eq (Beside V) (x (c, u)) (y (d, u))) (hd : ∀ c d u, V c d → dtor (c, u) = (run d u).mapState fun u' => (c, u')) :
    Out.Same V Eq (M.making c x dtor u) (collect d y run u) := by
  unfold M.making collect
  cases hx : x (c, u) <;> cases hy : y (d, u) <;> rw [hx, hy] at h <;> first | exact (h : False).elim | trivial | skip
  · exact ⟨h.2.1, h.2.2⟩
  · rename_i s t
    obtain ⟨h1, h2⟩ := h
    dsimp only
    have := hd s.1 t.1 s.2 h1
    rw [show dtor s = dtor (s.1, s.2) from rfl, this, h2]
    cases run t.1 t.2 <;> simp [Out.Same]

theorem bind_assoc {ρ α β γ : Type} (x : M ρ α) (f : α → M ρ β) (g : β → M ρ γ) : (x >>= f) >>= g = x >>= fun a => f a >>= g := by
  funext s
  simp only [M.bind_run]
  cases x s <;> rfl

theorem Pushes.full {push : A → M (σ × τ) Unit} (h : Pushes V cap el push) {c : σ} {l : List A} (hc : V c l) (hl : ¬ l.length < cap) (a : A)
    (f : Unit → M (σ × τ) Unit) (u : τ) : Out.Same Eq (Beside V) ((push a >>= f) (c, u)) (refuse el a (l, u)) := by
  have := h c l hc a u
  rw [if_neg hl] at this
  simp only [M.bind_run]
  simp only [refuse, M.onUnwind, M.panic_run, M.onSnd_run] at this ⊢
  cases hx : push a (c, u) <;> rw [hx] at this <;> cases hy : el.drop a u <;> rw [hy] at this <;> simp_all [Out.Same]

theorem Pushes.room {push : A → M (σ × τ) Unit} (h : Pushes V cap el push) {c : σ} {l : List A} (hc : V c l) (hl : l.length < cap) (a : A) (u : τ) :
    ∃ c', push a (c, u) = .ok () (c', u) ∧ V c' (l ++ [a]) := by
  have := h c l hc a u
  rw [if_pos hl] at this
  cases hx : push a (c, u) with
  | ok x t =>
    rw [hx] at this
    obtain ⟨c', u'⟩ := t
    obtain ⟨-, h1, h2⟩ := this
    dsimp only at h1 h2
    subst h2
    exact ⟨c', rfl, h1⟩
  | _ => rw [hx] at this; exact (this : False).elim

theorem pourLoop_same {push : A → M (σ × τ) Unit} (h : Pushes V cap el push) (src : SourceBy τ A) (n : Nat) : ∀ {fuel : Nat} {c : σ} {l : List A} {u : τ},
    V c l → l.length + n = cap → n < fuel → Out.Same Eq (Beside V) (src.pourLoop push fuel (c, u)) (fill src el n (l, u)) := by
  induction n with
  | zero =>
    intro fuel c l u hc hl hf
    obtain ⟨fuel, rfl⟩ : ∃ k, fuel = k + 1 := ⟨fuel - 1, by omega⟩
    unfold SourceBy.pourLoop fill
    refine pull_same (R := Beside _) (fun _ => ⟨hc, rfl⟩) fun o u' => ?_
    cases o with
    | none => exact ⟨rfl, hc, rfl⟩
    | some a => exact h.full hc (by omega) a _ u'
  | succ n ih =>
    intro fuel c l u hc hl hf
    obtain ⟨fuel, rfl⟩ : ∃ k, fuel = k + 1 := ⟨fuel - 1, by omega⟩
    unfold SourceBy.pourLoop fill
    refine pull_same (R := Beside _) (fun _ => ⟨hc, rfl⟩) fun o u' => ?_
    cases o with
    | none => exact ⟨rfl, hc, rfl⟩
    | some a =>
      obtain ⟨c', e, h1⟩ := h.room hc (by omega) a u'
      simp only [M.bind_run, e, Out.andThen_ok, M.onFst_run, M.get_run, M.set_run, Out.mapState_ok]
      exact ih h1 (by simp; omega) (by omega)

theorem pour_same {push : A → M (σ × τ) Unit} (h : Pushes V cap el push) (src : SourceBy τ A) {fuel : Nat} {c : σ} {l : List A} {u : τ}
    (hc : V c l) (hl : l.length ≤ cap) (hf : cap - l.length < fuel) :
    Out.Same Eq (Beside V) (src.pour push fuel (c, u)) (extend src el (cap - l.length) (l, u)) :=
  unwind_same (pourLoop_same h src _ hc (by omega) hf)

/-! ### What the specification does with the items -/

theorem fill_deals (src : SourceBy τ A) (el : Elem τ A) (n : Nat) : ∀ (l : List A) (u : τ) (log : List (Deal A)),
    (∀ s, fill src.traced el.dealt n (l, (u, log)) = .ok () s → ∃ xs, xs.length ≤ n ∧ s.1 = l ++ xs ∧ s.2.2 = log ++ xs.map .given) ∧
    (∀ s, fill src.traced el.dealt n (l, (u, log)) = .panic s → ∃ xs, xs.length ≤ n ∧ s.1 = l ++ xs ∧ (s.2.2 = log ++ xs.map .given ∨
      ∃ a, xs.length = n ∧ s.2.2 = log ++ xs.map .given ++ [.given a, .destroyed a])) := by
  induction n with
  | zero =>
    intro l u log
    simp only [fill, SourceBy.traced, M.bind_run, M.onSnd_run, M.onFst_run]
    cases hx : src.next u with
    | ok o u' =>
      cases o with
      | none =>
        refine ⟨fun s e => ?_, fun s e => ?_⟩
        · simp at e; subst e; exact ⟨[], by simp, by simp, by simp⟩
        · simp at e
      | some a =>
        simp only [Out.mapState_ok, Out.andThen_ok, M.bind_run, M.onSnd_run, M.get_run, M.set_run, M.pure_run, refuse, M.onUnwind, M.panic_run, Elem.dealt,
          M.onFst_run]
        cases hy : el.drop a u' with
        | ok v w =>
          refine ⟨fun s e => by simp at e, fun s e => ?_⟩
          simp at e; subst e
          exact ⟨[], by simp, by simp, .inr ⟨a, rfl, by simp⟩⟩
        | _ => simp
    | panic u' =>
      refine ⟨fun s e => by simp at e, fun s e => ?_⟩
      simp at e; subst e; exact ⟨[], by simp, by simp, .inl (by simp)⟩
    | _ => simp
  | succ n ih =>
    intro l u log
    simp only [fill, SourceBy.traced, M.bind_run, M.onSnd_run, M.onFst_run]
    cases hx : src.next u with
    | ok o u' =>
      cases o with
      | none =>
        refine ⟨fun s e => ?_, fun s e => ?_⟩
        · simp at e; subst e; exact ⟨[], by simp, by simp, by simp⟩
        · simp at e
      | some a =>
        simp only [Out.mapState_ok, Out.andThen_ok, M.bind_run, M.onSnd_run, M.get_run, M.set_run, M.pure_run, M.onFst_run]
        have := ih (l ++ [a]) u' (log ++ [.given a])
        refine ⟨fun s e => ?_, fun s e => ?_⟩
        · obtain ⟨xs, h1, h2, h3⟩ := this.1 s e
          exact ⟨a :: xs, by simpa using h1, by simpa using h2, by simpa using h3⟩
        · obtain ⟨xs, h1, h2, h3⟩ := this.2 s e
          refine ⟨a :: xs, by simpa using h1, by simpa using h2, ?_⟩
          rcases h3 with h3 | ⟨b, h3, h4⟩
          · exact .inl (by simpa using h3)
          · exact .inr ⟨b, by simpa using h3, by simpa using h4⟩
    | panic u' =>
      refine ⟨fun s e => by simp at e, fun s e => ?_⟩
      simp at e; subst e; exact ⟨[], by simp, by simp, .inl (by simp)⟩
    | _ => simp

theorem extend_deals (src : SourceBy τ A) (el : Elem τ A) (n : Nat) (l : List A) (u : τ) (log : List (Deal A)) :
    (∀ s, extend src.traced el.dealt n (l, (u, log)) = .ok () s → ∃ xs, xs.length ≤ n ∧ s.1 = l ++ xs ∧ s.2.2 = log ++ xs.map .given) ∧
    (∀ s, extend src.traced el.dealt n (l, (u, log)) = .panic s → ∃ xs, xs.length ≤ n ∧ s.1 = l ++ xs ∧ (s.2.2 = log ++ xs.map .given ∨
      ∃ a, xs.length = n ∧ s.2.2 = log ++ xs.map .given ++ [.given a, .destroyed a])) := by
  have h := fill_deals src el n l u log
  simp only [extend, M.bind_run, M.onUnwind]
  cases hx : fill src.traced el.dealt n (l, (u, log)) with
  | ok v s =>
    obtain ⟨xs, h1, h2, h3⟩ := h.1 s hx
    simp only [Out.andThen_ok, M.onSnd_run, SourceBy.traced, M.onFst_run]
    cases hy : src.drop s.2.1 with
    | ok v w =>
      refine ⟨fun s' e => ?_, fun s' e => by simp at e⟩
      simp at e; subst e; exact ⟨xs, h1, h2, h3⟩
    | panic w =>
      refine ⟨fun s' e => by simp at e, fun s' e => ?_⟩
      simp at e; subst e; exact ⟨xs, h1, h2, .inl h3⟩
    | _ => simp
  | panic s =>
    obtain ⟨xs, h1, h2, h3⟩ := h.2 s hx
    simp only [M.onSnd_run, SourceBy.traced, M.onFst_run]
    cases hy : src.drop s.2.1 with
    | ok v w =>
      refine ⟨fun s' e => by simp at e, fun s' e => ?_⟩
      simp at e; subst e; exact ⟨xs, h1, h2, h3⟩
    | _ => simp
  | _ => simp

theorem dealt_dropEach (el : Elem τ A) (l : List A) : ∀ (u : τ) (log : List (Deal A)) s, el.dealt.dropEach l (u, log) = .ok () s →
    s.2 = log ++ l.map .destroyed := by
  induction l with
  | nil => intro u log s e; simp [Elem.dropEach] at e; subst e; simp
  | cons a r ih =>
    intro u log s e
    simp only [Elem.dropEach, M.bind_run, Elem.dealt, M.onSnd_run, M.get_run, M.set_run, Out.andThen_ok, Out.mapState_ok, M.onFst_run] at e
    cases hx : el.drop a u <;> rw [hx] at e <;> simp at e
    have := ih _ _ _ e
    simpa using this

theorem dealt_dropSlice (el : Elem τ A) (l : List A) : ∀ (u : τ) (log : List (Deal A)) s, el.dealt.dropSlice l (u, log) = .ok () s →
    s.2 = log ++ l.map .destroyed := by
  induction l with
  | nil => intro u log s e; simp [Elem.dropSlice] at e; subst e; simp
  | cons a r ih =>
    intro u log s e
    simp only [Elem.dropSlice, M.bind_run, M.onUnwind, Elem.dealt, M.onSnd_run, M.get_run, M.set_run, Out.andThen_ok, Out.mapState_ok, M.onFst_run] at e
    cases hx : el.drop a u with
    | ok v w =>
      rw [hx] at e
      have := ih _ _ _ e
      simpa using this
    | panic w =>
      rw [hx] at e
      simp only [Out.mapState_panic] at e
      split at e <;> simp_all [Out.andThen]
    | _ => rw [hx] at e; simp at e

theorem collect_deals {src : SourceBy τ A} {el : Elem τ A} {n : Nat} {u : τ} {log : List (Deal A)} {run : List A → M (τ × List (Deal A)) Unit}
    (hr : ∀ l u log s, run l (u, log) = .ok () s → s.2 = log ++ l.map .destroyed) :
    (∀ l s, collect [] (extend src.traced el.dealt n) run (u, log) = .ok l s → l.length ≤ n ∧ s.2 = log ++ l.map .given) ∧
    (∀ s, collect [] (extend src.traced el.dealt n) run (u, log) = .panic s → ∃ xs : List A, xs.length ≤ n ∧ (s.2 = log ++ xs.map .given ++ xs.map .destroyed ∨
      ∃ a, xs.length = n ∧ s.2 = log ++ xs.map .given ++ [.given a, .destroyed a] ++ xs.map .destroyed)) := by
  have h := extend_deals src el n [] u log
  unfold collect
  cases hx : extend src.traced el.dealt n ([], (u, log)) with
  | ok v s =>
    obtain ⟨xs, h1, h2, h3⟩ := h.1 s hx
    refine ⟨fun l s' e => ?_, fun s' e => by simp at e⟩
    simp at e
    obtain ⟨rfl, rfl⟩ := e
    rw [h2]; exact ⟨by simpa using h1, by simpa using h3⟩
  | panic s =>
    obtain ⟨xs, h1, h2, h3⟩ := h.2 s hx
    obtain ⟨s1, s2, s3⟩ := s
    rw [List.nil_append] at h2
    dsimp only at h2 h3
    subst h2
    dsimp only
    cases hy : run s1 (s2, s3) with
    | ok v w =>
      refine ⟨fun l s' e => by simp at e, fun s' e => ?_⟩
      simp at e; subst e
      have := hr _ _ _ _ hy
      rw [this]
      refine ⟨s1, h1, ?_⟩
      rcases h3 with h3 | ⟨a, h3, h4⟩
      · exact .inl (by rw [h3])
      · exact .inr ⟨a, h3, by rw [h4]⟩
    | _ => simp
  | _ => simp

end Fill

/-- What the record of a panicking call may be: the items handed out before, and perhaps one more, which had no room and was destroyed. -/
def Refused (full : Prop) (log xs : List (Deal A)) (log' : List (Deal A)) : Prop :=
  log' = log ++ xs ∨ ∃ a, full ∧ log' = log ++ xs ++ [.given a, .destroyed a]

/-- Filling a container showing `l`, with room for `cap` items: the items handed out are in the container afterwards, in order and behind those there were,
whether it returns or panics, and nothing is destroyed but an item for which there is no room. -/
def ExtendDeals (V : σ → List A → Prop) (cap : Nat) (l : List A) (log : List (Deal A)) (o : Out (σ × (τ × List (Deal A))) Unit) : Prop :=
  (∀ s, o = .ok () s → ∃ xs, V s.1 (l ++ xs) ∧ s.2.2 = log ++ xs.map .given) ∧
  (∀ s, o = .panic s → ∃ xs : List A, V s.1 (l ++ xs) ∧ Refused (l.length + xs.length = cap) log (xs.map .given) s.2.2)

/-- Making a container with room for `cap` items: if this returns, the items handed out are in the container, and nothing was destroyed; if it panics,
each was destroyed, once. -/
def CollectDeals (V : σ → List A → Prop) (cap : Nat) (log : List (Deal A)) (o : Out (τ × List (Deal A)) σ) : Prop :=
  (∀ c s, o = .ok c s → ∃ xs, V c xs ∧ s.2 = log ++ xs.map .given) ∧
  (∀ s, o = .panic s → ∃ (xs : List A) (log' : List (Deal A)), Refused (xs.length = cap) log (xs.map .given) log' ∧ s.2 = log' ++ xs.map .destroyed)

theorem ExtendDeals.of_same {V : σ → List A → Prop} {cap : Nat} {l : List A} {log : List (Deal A)} {src : SourceBy τ A} {el : Elem τ A} {u : τ}
    {o : Out (σ × (τ × List (Deal A))) Unit} (hl : l.length ≤ cap) (h1 : Out.Same Eq (Beside V) o (Fill.extend src.traced el.dealt (cap - l.length) (l, (u, log)))) :
    ExtendDeals V cap l log o := by
  have h2 := Fill.extend_deals src el (cap - l.length) l u log
  refine ⟨fun s e => ?_, fun s e => ?_⟩
  · obtain ⟨_, t, e', -, h3, h4⟩ := h1.ok_inv e
    obtain ⟨xs, -, h5, h6⟩ := h2.1 t e'
    exact ⟨xs, h5 ▸ h3, h4 ▸ h6⟩
  · obtain ⟨t, e', h3, h4⟩ := h1.panic_inv e
    obtain ⟨xs, -, h5, h6⟩ := h2.2 t e'
    refine ⟨xs, h5 ▸ h3, ?_⟩
    rw [h4]
    exact h6.imp (fun h => h) fun ⟨a, h7, h8⟩ => ⟨a, by omega, h8⟩

theorem CollectDeals.of_same {V : σ → List A → Prop} {cap : Nat} {log : List (Deal A)} {src : SourceBy τ A} {el : Elem τ A} {u : τ}
    {run : List A → M (τ × List (Deal A)) Unit} (hr : ∀ l u log s, run l (u, log) = .ok () s → s.2 = log ++ l.map .destroyed)
    {o : Out (τ × List (Deal A)) σ} (h1 : Out.Same V Eq o (Fill.collect [] (Fill.extend src.traced el.dealt cap) run (u, log))) : CollectDeals V cap log o := by
  have h2 := Fill.collect_deals (src := src) (el := el) (n := cap) (u := u) (log := log) hr
  refine ⟨fun c s e => ?_, fun s e => ?_⟩
  · obtain ⟨l, t, e', h3, h4⟩ := h1.ok_inv e
    exact ⟨l, h3, by rw [h4]; exact (h2.1 l t e').2⟩
  · obtain ⟨t, e', h4⟩ := h1.panic_inv e
    obtain ⟨xs, -, h6⟩ := h2.2 t e'
    rw [h4]
    rcases h6 with h6 | ⟨a, h6, h7⟩
    · exact ⟨xs, _, .inl rfl, h6⟩
    · exact ⟨xs, _, .inr ⟨a, h6, rfl⟩, h7⟩

/-! ### The containers -/

namespace Chunk
variable {E : Env} {N : Nat} {c : Chunk A} {l : List A} {el : Elem τ A} {src : SourceBy τ A}
open Fill

theorem pushes (hN : 2 * N < E.W) : Pushes (Rep N) N el (pushBackOwnedBy E N el) :=
  Pushes.of_ref fun _ _ h a => pushBack_ref (by omega) h a

theorem Same.view {o : Out (Chunk A × τ) Unit} {o' : Out (List A × τ) Unit} (h : Out.Same Eq (Beside (Rep N)) o o') : Out.Same Eq (ViewS E N) o o' :=
  h.imp (fun _ _ h => h) fun _ _ h => ⟨h.1.view E, h.2⟩

/-- C117. `extend` on a chunk does to the user's state what filling a list with as much room does, ends like it, and leaves a chunk which shows that
list. -/
theorem C117_extend (hN : 2 * N < E.W) (h : View E N c l) (u : τ) {fuel : Nat} (hf : N < fuel) :
    Out.Same Eq (ViewS E N) (extendWith E N el src fuel (c, u)) (Fill.extend src el (N - l.length) (l, u)) :=
  Same.view (pour_same (pushes hN) src (h.rep hN) (h.rep hN).length_le (by omega))

/-- C117. `from_iter` (`collect`) into a chunk. -/
theorem C117_from_iter (hN : 2 * N < E.W) (u : τ) {fuel : Nat} (hf : N < fuel) :
    Out.Same (View E N) Eq (fromIterWith E N el src fuel u) (Fill.collect [] (Fill.extend src el N) el.dropSlice u) := by
  have := making_same (u := u) (pour_same (pushes (el := el) hN) src (Rep.empty rfl rfl : Rep N new []) (Nat.zero_le _) (by simpa using hf))
    (dtor := dropBy E N el) (run := el.dropSlice) fun _ _ u h => dropBy_same h u
  exact this.imp (fun _ _ h => h.view E) fun _ _ h => h

theorem collectLoopWith_same (hN : 2 * N < E.W) (count : Nat) : ∀ {n : Nat} {c : Chunk A} {l : List A} {u : τ}, Rep N c l → l.length + n = N →
    Out.Same Eq (Beside (Rep N)) (collectLoopWith E N el src count (c, u)) (Fill.take src el count n (l, u)) := by
  induction count with
  | zero => intro n c l u hc _; simp only [collectLoopWith, take]; exact ⟨rfl, hc, rfl⟩
  | succ count ih =>
    intro n c l u hc hl
    cases n with
    | zero =>
      unfold collectLoopWith take
      refine pull_same (R := Beside _) (fun _ => ⟨hc, rfl⟩) fun o u' => ?_
      cases o with
      | none => exact ⟨hc, rfl⟩
      | some a => exact (pushes hN).full hc (by omega) a _ u'
    | succ n =>
      unfold collectLoopWith take
      refine pull_same (R := Beside _) (fun _ => ⟨hc, rfl⟩) fun o u' => ?_
      cases o with
      | none => exact ⟨hc, rfl⟩
      | some a =>
        obtain ⟨c', e, h1⟩ := (pushes (E := E) (el := el) hN).room hc (by omega) a u'
        simp only [M.bind_run, e, Out.andThen_ok, M.onFst_run, M.get_run, M.set_run, Out.mapState_ok]
        exact ih h1 (by simp; omega)

/-- C117. `collect_from` into a chunk. -/
theorem C117_collect_from (hN : 2 * N < E.W) (count : Nat) (u : τ) :
    Out.Same (View E N) Eq (collectFromWith E N el src count u) (Fill.collect [] (Fill.take src el count N) el.dropSlice u) := by
  have := making_same (u := u) (collectLoopWith_same (el := el) (src := src) hN count (Rep.empty rfl rfl : Rep N new []) (Nat.zero_add N))
    (dtor := dropBy E N el) (run := el.dropSlice) fun _ _ u h => dropBy_same h u
  exact this.imp (fun _ _ h => h.view E) fun _ _ h => h

/-- C117. The items handed out to `extend` are in the chunk afterwards, in order and behind those there were, whether it returns or panics, and nothing
is destroyed but an item for which there is no room. -/
theorem C117_extend_deals (hN : 2 * N < E.W) (h : View E N c l) (u : τ) (log : List (Deal A)) {fuel : Nat} (hf : N < fuel) :
    ExtendDeals (View E N) N l log (extendWith E N el.dealt src.traced fuel (c, (u, log))) :=
  .of_same (h.rep hN).length_le (C117_extend hN h (u, log) hf)

/-- C117. If `from_iter` returns, the items handed out are in the chunk, and nothing was destroyed; if it panics, each was destroyed, once. -/
theorem C117_from_iter_deals (hN : 2 * N < E.W) (u : τ) (log : List (Deal A)) {fuel : Nat} (hf : N < fuel) :
    CollectDeals (View E N) N log (fromIterWith E N el.dealt src.traced fuel (u, log)) :=
  .of_same (Fill.dealt_dropSlice el) (C117_from_iter hN (u, log) hf)

end Chunk

namespace Ring
variable {E : Env} {N : Nat} {c : Ring A} {l : List A} {el : Elem τ A} {src : SourceBy τ A}
open Fill

theorem pushes (hW : 2 * N < E.W) : Pushes (Rep N) N el (pushBackOwnedBy E N el) :=
  Pushes.of_ref fun _ _ h a => pushBack_ref hW h a

theorem new_run (hN : 0 < N) (s : σ) : (new E N : M σ (Ring A)) s = .ok ⟨0, 0, Mem.uninit⟩ s := by
  have : Sat ((new E N : M σ (Ring A)) s) (fun c s' => c = ⟨0, 0, Mem.uninit⟩ ∧ s' = s) (fun _ => False) False := sat_new hN ⟨rfl, rfl⟩
  exact this.eq_ok

/-- C117. `extend` on a buffer. -/
theorem C117_extend (hW : 2 * N < E.W) (h : View E N c l) (u : τ) {fuel : Nat} (hf : N < fuel) :
    Out.Same Eq (Beside (View E N)) (extendWith E N el src fuel (c, u)) (Fill.extend src el (N - l.length) (l, u)) :=
  (pour_same (pushes hW) src (h.rep hW) (h.rep hW).length_le (by omega)).imp (fun _ _ h => h) fun _ _ h => ⟨h.1.view hW, h.2⟩

/-- C117. `from_iter` (`collect`) into a buffer. -/
theorem C117_from_iter (hN : 0 < N) (hW : 2 * N < E.W) (u : τ) {fuel : Nat} (hf : N < fuel) :
    Out.Same (View E N) Eq (fromIterWith E N el src fuel u) (Fill.collect [] (Fill.extend src el N) el.dropEach u) := by
  have := making_same (u := u) (pour_same (pushes (E := E) (el := el) hW) src (Rep.empty hN : Rep N ⟨0, 0, Mem.uninit⟩ []) (Nat.zero_le _) (by simpa using hf))
    (dtor := dropBy E N el) (run := el.dropEach) fun _ _ u h => dropBy_same hW h u
  simp only [fromIterWith, M.bind_run, M.onUnwind, new_run hN, Out.andThen_ok]
  exact this.imp (fun _ _ h => h.view hW) fun _ _ h => h

theorem takeLoopWith_same (hW : 2 * N < E.W) (total count : Nat) : ∀ {n : Nat} {c : Ring A} {l : List A} {u : τ}, Rep N c l → l.length + n = N →
    l.length + count = total →
    Out.Same Eq (Beside (Rep N)) ((do
      takeLoopWith E N el src count
      M.panicIf ((← M.onFst getLen) < total)) (c, u)) (Fill.take src el count n (l, u)) := by
  induction count with
  | zero =>
    intro n c l u hc _ ht
    simp only [takeLoopWith, take, M.bind_run, M.pure_run, Out.andThen_ok, M.onFst_run, getLen_eq hc, Out.mapState_ok, M.panicIf_run,
      show ¬ (l.length < total) by omega, if_false]
    exact ⟨rfl, hc, rfl⟩
  | succ count ih =>
    intro n c l u hc hl ht
    have short : ∀ u', Out.Same Eq (Beside (Rep N)) (((pure () : M (Ring A × τ) Unit) >>= fun _ => (do M.panicIf ((← M.onFst getLen) < total))) (c, u'))
        ((M.panic : M (List A × τ) Unit) (l, u')) := by
      intro u'
      simp only [M.bind_run, M.pure_run, Out.andThen_ok, M.onFst_run, getLen_eq hc, Out.mapState_ok, M.panicIf_run, show l.length < total by omega, if_true]
      exact ⟨hc, rfl⟩
    cases n with
    | zero =>
      unfold takeLoopWith take
      rw [Fill.bind_assoc]
      refine pull_same (R := Beside _) (fun _ => ⟨hc, rfl⟩) fun o u' => ?_
      cases o with
      | none => exact short u'
      | some a => rw [Fill.bind_assoc]; exact (pushes hW).full hc (by omega) a _ u'
    | succ n =>
      unfold takeLoopWith take
      rw [Fill.bind_assoc]
      refine pull_same (R := Beside _) (fun _ => ⟨hc, rfl⟩) fun o u' => ?_
      cases o with
      | none => exact short u'
      | some a =>
        obtain ⟨c', e, h1⟩ := (pushes (E := E) (el := el) hW).room hc (by omega) a u'
        have := ih (u := u') h1 (n := n) (by simp; omega) (by simp; omega)
        simp only [M.bind_run, e, Out.andThen_ok, M.onFst_run, M.get_run, M.set_run, Out.mapState_ok] at this ⊢
        exact this

/-- C117. `collect_from` into a buffer. -/
theorem C117_collect_from (hN : 0 < N) (hW : 2 * N < E.W) (count : Nat) (u : τ) :
    Out.Same (View E N) Eq (collectFromWith E N el src count u) (Fill.collect [] (Fill.take src el count N) el.dropEach u) := by
  have := making_same (u := u) (takeLoopWith_same (E := E) (el := el) (src := src) hW count count (Rep.empty hN : Rep N ⟨0, 0, Mem.uninit⟩ []) (Nat.zero_add N)
    (Nat.zero_add _)) (dtor := dropBy E N el) (run := el.dropEach) fun _ _ u h => dropBy_same hW h u
  simp only [collectFromWith, M.bind_run, new_run hN, Out.andThen_ok]
  exact this.imp (fun _ _ h => h.view hW) fun _ _ h => h

/-- C117. Which items `extend` appends and destroys. -/
theorem C117_extend_deals (hW : 2 * N < E.W) (h : View E N c l) (u : τ) (log : List (Deal A)) {fuel : Nat} (hf : N < fuel) :
    ExtendDeals (View E N) N l log (extendWith E N el.dealt src.traced fuel (c, (u, log))) :=
  .of_same (h.rep hW).length_le (C117_extend hW h (u, log) hf)

/-- C117. Which items `from_iter` collects and destroys. -/
theorem C117_from_iter_deals (hN : 0 < N) (hW : 2 * N < E.W) (u : τ) (log : List (Deal A)) {fuel : Nat} (hf : N < fuel) :
    CollectDeals (View E N) N log (fromIterWith E N el.dealt src.traced fuel (u, log)) :=
  .of_same (Fill.dealt_dropEach el) (C117_from_iter hN hW (u, log) hf)

end Ring

namespace Inline
variable [DecidableEq A] {E : Env} {L : Layout A} {dp : A → Bool} {cl : A → Option A} {c : Inline A} {l : List A} {el : Elem τ A} {src : SourceBy τ A}
open Fill

theorem pushes (hv : L.Valid E) : Pushes (Rep E L) (cap E L) el (pushOwnedBy E L el) :=
  Pushes.of_ref fun _ _ h a => push_ref hv h a

/-- C117. `extend` on an array. -/
theorem C117_extend (hv : L.Valid E) (hr : Reachable E L dp cl c) (h : View E L c l) (u : τ) {fuel : Nat} (hf : cap E L < fuel) :
    Out.Same Eq (Beside (View E L)) (extendWith E L el src fuel (c, u)) (Fill.extend src el (cap E L - l.length) (l, u)) :=
  have h' := hr.rep_of_view hv h
  (pour_same (pushes hv) src h' h'.le (by omega)).imp (fun _ _ h => h) fun _ _ h => ⟨h.1.view hv, h.2⟩

/-- C117. `from_iter` (`collect`) into an array; where `new` panics, nothing is asked of the iterator, which is dropped. -/
theorem C117_from_iter (hv : L.Valid E) (k : Nat) (u : τ) {fuel : Nat} (hf : cap E L < fuel) :
    Out.Same (View E L) Eq (fromIterWith E L el src k fuel u) (if Accepted E L then Fill.collect [] (Fill.extend src el (cap E L)) el.dropSlice u
      else M.onUnwind M.panic src.drop u) := by
  simp only [fromIterWith, M.bind_run, M.onUnwind, make]
  by_cases ha : Accepted E L
  · obtain ⟨s, h1, h2⟩ := new_ok hv ha k
    rw [h1, if_pos ha]
    have := making_same (u := u) (pour_same (pushes (el := el) hv) src h2 (Nat.zero_le _) (by simpa using hf))
      (dtor := dropBy E L el) (run := el.dropSlice) fun _ _ u h => dropBy_same hv h u
    exact this.imp (fun _ _ h => h.view hv) fun _ _ h => h
  · rw [new_panic ha, if_neg ha]
    simp only [Out.mapState_panic, M.panic_run]
    cases src.drop u <;> simp [Out.Same]

/-- C117. Which items `extend` appends and destroys. -/
theorem C117_extend_deals (hv : L.Valid E) (hr : Reachable E L dp cl c) (h : View E L c l) (u : τ) (log : List (Deal A)) {fuel : Nat}
    (hf : cap E L < fuel) : ExtendDeals (View E L) (cap E L) l log (extendWith E L el.dealt src.traced fuel (c, (u, log))) :=
  .of_same (hr.rep_of_view hv h).le (C117_extend hv hr h (u, log) hf)

/-- C117. Which items `from_iter` collects and destroys. -/
theorem C117_from_iter_deals (hv : L.Valid E) (ha : Accepted E L) (k : Nat) (u : τ) (log : List (Deal A)) {fuel : Nat} (hf : cap E L < fuel) :
    CollectDeals (View E L) (cap E L) log (fromIterWith E L el.dealt src.traced k fuel (u, log)) := by
  have := C117_from_iter (el := el.dealt) (src := src.traced) hv k (u, log) hf
  rw [if_pos ha] at this
  exact .of_same (Fill.dealt_dropSlice el) this

end Inline

namespace Sparse
variable {N : Nat} {c : Sparse A} {m : SMap A} {el : Elem τ A} {src : SourceBy τ (Option A)}
open Fill

theorem fillLoopWith_same (fuel : Nat) : ∀ {i : Nat} {c : Sparse A} {m : SMap A} {u : τ}, Rep N c m → (∀ j, i ≤ j → m j = none) →
    Out.Same Eq (Beside (Rep N)) (fillLoopWith N el src fuel i (c, u)) (fillMap el src N fuel i (m, u)) := by
  induction fuel with
  | zero => intro i c m u _ _; trivial
  | succ fuel ih =>
    intro i c m u hc hi
    unfold fillLoopWith fillMap
    refine pull_same (R := Beside _) (fun _ => ⟨hc, rfl⟩) fun o u' => ?_
    match o with
    | none => exact ⟨rfl, hc, rfl⟩
    | some none => exact ih hc fun j hj => hi j (by omega)
    | some (some a) =>
      have h1 := insert_ref hc i a
      simp only [MSpec.insert] at h1
      dsimp only
      by_cases hN : i < N
      · rw [if_pos hN] at h1
        rw [if_pos hN]
        obtain ⟨c', e, h2⟩ := h1.of_ok rfl
        rw [hi i (Nat.le_refl _)] at e
        have e2 : insertOwnedBy N el i a (c, u') = .ok () (c', u') := by simp [insertOwnedBy, M.onUnwind, e, dropOptBy]
        simp only [M.bind_run, e2, Out.andThen_ok, M.onFst_run, M.get_run, M.set_run, Out.mapState_ok]
        exact ih h2 fun j hj => by simp only [SMap.upd, show j ≠ i by omega, if_false]; exact hi j (by omega)
      · rw [if_neg hN] at h1
        rw [if_neg hN]
        obtain ⟨c', e, h2⟩ := h1.of_panic rfl
        simp only [M.bind_run, insertOwnedBy, M.onUnwind, M.onFst_run, e, Out.mapState_panic, M.onSnd_run, refuse, M.panic_run]
        cases el.drop a u' <;> simp [Out.Same, Beside, h2]

/-- C117. `from_iter` (`collect`) into a sparse chunk: the user's state goes through what it would for a map, for any number of turns of the loop. -/
theorem C117_from_iter (u : τ) (fuel : Nat) :
    Out.Same (View N) Eq (fromIterWith N el src fuel u) (Fill.collect SMap.empty (extendMap el src N fuel) (fun m => el.dropEach (m.vals N)) u) := by
  have := making_same (u := u) (V := Rep N) (c := new) (d := SMap.empty) (x := do
      M.onUnwind (fillLoopWith N el src fuel 0) (M.onSnd src.drop)
      M.onSnd src.drop) (y := extendMap el src N fuel)
    (dtor := dropBy N el) (run := fun m => el.dropEach (m.vals N)) (unwind_same (fillLoopWith_same fuel (Rep.empty _) fun _ _ => rfl)) fun _ _ u h => dropBy_same h u
  exact this.imp (fun _ _ h => h.view) fun _ _ h => h

end Sparse

/-! ### Verif/Pour.lean is a special case -/

namespace Fill

theorem shift_bind {L α β : Type} (x : M (σ × (τ × L)) α) (f : α → M (σ × (τ × L)) β) : M.shift (x >>= f) = M.shift x >>= fun a => M.shift (f a) := by
  funext s
  simp only [M.shift, M.bind_run]
  cases x (s.1.1, (s.1.2, s.2)) <;> rfl

theorem shift_onUnwind {L α : Type} (x : M (σ × (τ × L)) α) (y : M (σ × (τ × L)) Unit) : M.shift (M.onUnwind x y) = M.onUnwind (M.shift x) (M.shift y) := by
  funext s
  simp only [M.shift, M.onUnwind]
  cases x (s.1.1, (s.1.2, s.2)) with
  | panic t => dsimp only [Out.mapState]; cases y t <;> rfl
  | _ => rfl

theorem shift_onFst {L α : Type} (x : M σ α) : (M.shift (M.onFst x) : M ((σ × τ) × L) α) = M.onFst (M.onFst x) := by
  funext s
  simp only [M.shift, M.onFst_run]
  cases x s.1.1 <;> rfl

theorem shift_drop (dp : A → Bool) (a : A) : (M.shift (M.onSnd ((Elem.beside dp).drop a)) : M ((σ × τ) × List A) Unit) = dropOne dp a := by
  funext s
  simp only [M.shift, M.onSnd_run, Elem.beside, dropOne]
  split <;> rfl

theorem atFst_push (dp : A → Bool) (x : M σ Unit) (a : A) :
    (M.atFst (M.onUnwind (M.onFst x) (dropOne dp a)) : M ((σ × τ) × List A) Unit) = M.shift (M.onUnwind (M.onFst x) (M.onSnd ((Elem.beside dp).drop a))) := by
  rw [shift_onUnwind, shift_onFst, shift_drop]
  funext s
  simp only [M.atFst, M.onUnwind, M.onFst_run]
  cases x s.1.1 with
  | panic t => by_cases hd : dp a = true <;> simp [dropOne, hd]
  | _ => rfl

theorem atFst_bind {C L α β : Type} (x : M (C × L) α) (f : α → M (C × L) β) :
    (M.atFst (x >>= f) : M ((C × τ) × L) β) = M.atFst x >>= fun a => M.atFst (f a) := by
  funext s
  simp only [M.atFst, M.bind_run]
  cases x (s.1.1, s.2) <;> rfl

theorem beside_each (dp : A → Bool) (l : List A) : (Elem.beside dp : Elem (τ × List A) A).dropEach l = M.onSnd ((Elem.plain dp fun _ => none).dropEach l) := by
  induction l with
  | nil => rfl
  | cons a r ih =>
    funext s
    simp only [Elem.dropEach, M.bind_run, ih, M.onSnd_run]
    rw [show (Elem.beside dp : Elem (τ × List A) A).drop a s = M.onSnd ((Elem.plain dp fun _ => none).drop a) s by rw [Elem.plain_drop]; rfl, M.onSnd_run]
    cases (Elem.plain dp fun _ => none).drop a s.2 <;> rfl

theorem beside_slice (dp : A → Bool) (l : List A) : (Elem.beside dp : Elem (τ × List A) A).dropSlice l = M.onSnd ((Elem.plain dp fun _ => none).dropSlice l) := by
  induction l with
  | nil => rfl
  | cons a r ih =>
    funext s
    simp only [Elem.dropSlice, M.bind_run, ih, M.onSnd_run, M.onUnwind, beside_each]
    rw [show (Elem.beside dp : Elem (τ × List A) A).drop a s = M.onSnd ((Elem.plain dp fun _ => none).drop a) s by rw [Elem.plain_drop]; rfl, M.onSnd_run]
    cases (Elem.plain dp fun _ => none).drop a s.2 with
    | panic t => dsimp only [Out.mapState]; cases (Elem.plain dp fun _ => none).dropEach r t <;> rfl
    | _ => rfl

/-- Destroying the slice of what `x` shows. -/
theorem slice_shift (dp : A → Bool) (x : M σ (List A)) :
    (M.atFst (M.onFst x >>= fun l => dropSlice dp l) : M ((σ × τ) × List A) Unit) =
      M.shift (M.onFst x >>= fun l => M.onSnd ((Elem.beside dp).dropSlice l)) := by
  rw [atFst_bind, shift_bind, shift_onFst, M.atFst_onFst]
  congr 1
  funext l s
  simp only [M.atFst, M.shift, M.onSnd_run, beside_slice, ← Elem.plain_dropSlice dp fun _ => none]
  cases (Elem.plain dp fun _ => none).dropSlice l s.2 <;> rfl

theorem pourLoop_shift (src : Source τ A) {push : A → M (σ × List A) Unit} {push' : A → M (σ × (τ × List A)) Unit} (h : ∀ a, M.atFst (push a) = M.shift (push' a))
    (fuel : Nat) : src.pourLoop push fuel = M.shift (src.beside.pourLoop push' fuel) := by
  induction fuel with
  | zero => rfl
  | succ fuel ih =>
    unfold Source.pourLoop SourceBy.pourLoop
    rw [shift_bind]
    funext s
    simp only [M.bind_run, Source.pull, M.onFst_run, M.onSnd_run, M.shift, Source.beside]
    cases src.next s.1.2 with
    | ok o t =>
      cases o with
      | none => rfl
      | some a =>
        simp only [Out.mapState_ok, Out.andThen_ok, M.bind_run, h, ih, M.shift]
        cases push' a (s.1.1, (t, s.2)) <;> rfl
    | _ => rfl

theorem pour_shift (src : Source τ A) {push : A → M (σ × List A) Unit} {push' : A → M (σ × (τ × List A)) Unit} (h : ∀ a, M.atFst (push a) = M.shift (push' a))
    (fuel : Nat) : src.pour push fuel = M.shift (src.beside.pour push' fuel) := by
  have hd : (src.close : M ((σ × τ) × List A) Unit) = M.shift (M.onSnd src.beside.drop) := by
    funext s
    simp only [Source.close, M.atSnd, M.shift, M.onSnd_run, Source.beside]
    cases src.drop (s.1.2, s.2) <;> rfl
  unfold Source.pour SourceBy.pour
  rw [shift_bind, shift_onUnwind, pourLoop_shift src h, hd]

theorem gather_shift (src : Source τ A) {init : σ} {push : A → M (σ × List A) Unit} {push' : A → M (σ × (τ × List A)) Unit} {dtor : M (σ × List A) Unit}
    {dtor' : M (σ × (τ × List A)) Unit} (h : ∀ a, M.atFst (push a) = M.shift (push' a)) (hd : M.atFst dtor = M.shift dtor') (fuel : Nat) :
    src.gather init push dtor fuel = M.making init (src.beside.pour push' fuel) dtor' := by
  unfold Source.gather M.making
  rw [pour_shift src h, hd]
  funext s
  simp only [M.bind_run, M.withLocal, M.shift]
  cases src.beside.pour push' fuel (init, s.1, s.2) with
  | panic t => dsimp only [Out.mapState]; cases dtor' t <;> rfl
  | _ => rfl

end Fill

/-- C117. With an iterator whose state is its own and destructors that log and perhaps panic, these are the methods of Verif/Pour.lean. -/
theorem Chunk.C117_plain (E : Env) (N : Nat) (src : Source τ A) (dp : A → Bool) (fuel : Nat) :
    extendBy E N src dp fuel = M.shift (extendWith E N (Elem.beside dp) src.beside fuel) ∧
    fromIterBy E N src dp fuel = fromIterWith E N (Elem.beside dp) src.beside fuel :=
  have h : ∀ a, (M.atFst (pushBackOwned E N dp a) : M ((Chunk A × τ) × List A) Unit) = M.shift (pushBackOwnedBy E N (Elem.beside dp) a) :=
    fun a => Fill.atFst_push dp _ a
  ⟨Fill.pour_shift src h fuel, Fill.gather_shift src h (Fill.slice_shift dp (asSlice E N)) fuel⟩

namespace Ring
variable {E : Env} {N : Nat}

theorem idxNext_unit (it : IdxIter) (s : σ) : idxNext E N it s = (idxNext E N it ()).mapState fun _ => s := by
  unfold idxNext rawInc usub uadd
  simp only [M.ite_run, M.bind_run, M.pure_run]
  repeat' (first | split | rfl | simp only [Out.andThen_ok, M.panic_run])

theorem forLoop_shift {body : Nat → M (Ring A × List A) Unit} {body' : Nat → M (Ring A × (τ × List A)) Unit} (h : ∀ i, M.atFst (body i) = M.shift (body' i))
    (f : Nat) : ∀ it, M.atFst (forLoop E N body f it) = M.shift (forLoop E N body' f it) := by
  induction f with
  | zero => intro it; rfl
  | succ f ih =>
    intro it
    unfold forLoop
    rw [Fill.atFst_bind, Fill.shift_bind]
    have h1 : (M.atFst (idxNext E N it : M (Ring A × List A) _) : M ((Ring A × τ) × List A) _) = M.shift (idxNext E N it) := by
      funext s
      simp only [M.atFst, M.shift]
      rw [idxNext_unit, idxNext_unit it (s.1.1, s.1.2, s.2)]
      cases idxNext E N it () <;> rfl
    rw [h1]
    congr 1
    funext o
    cases o with
    | none => rfl
    | some p => simp only [Fill.atFst_bind, Fill.shift_bind, h, ih]

/-- C117. With an iterator whose state is its own and destructors that log and perhaps panic, these are the methods of Verif/Pour.lean. -/
theorem C117_plain (E : Env) (N : Nat) (src : Source τ A) (dp : A → Bool) (fuel : Nat) :
    extendBy E N src dp fuel = M.shift (extendWith E N (Elem.beside dp) src.beside fuel) ∧
    fromIterBy E N src dp fuel = fromIterWith E N (Elem.beside dp) src.beside fuel := by
  have h : ∀ a, (M.atFst (pushBackOwned E N dp a) : M ((Ring A × τ) × List A) Unit) = M.shift (pushBackOwnedBy E N (Elem.beside dp) a) :=
    fun a => Fill.atFst_push dp _ a
  have h1 : ∀ i, (M.atFst (forceDrop E N dp i) : M ((Ring A × τ) × List A) Unit) = M.shift (forceDropBy E N (Elem.beside dp) i) := by
    intro i
    unfold forceDrop forceDropBy
    rw [Fill.atFst_bind, Fill.shift_bind, Fill.shift_onFst, M.atFst_onFst]
    congr 1
    funext a s
    rw [Fill.shift_drop]
    simp only [M.atFst, dropOne]
    split <;> rfl
  have hd : (M.atFst (drop E N dp) : M ((Ring A × τ) × List A) Unit) = M.shift (dropBy E N (Elem.beside dp)) := by
    unfold drop dropBy
    rw [Fill.atFst_bind, Fill.shift_bind, Fill.shift_onFst, M.atFst_onFst]
    congr 1
    funext it
    exact forLoop_shift h1 _ it
  refine ⟨Fill.pour_shift src h fuel, ?_⟩
  unfold fromIterBy fromIterWith
  simp only [Fill.gather_shift src h hd fuel]
  rfl

end Ring

/-- C117. With an iterator whose state is its own and destructors that log and perhaps panic, these are the methods of Verif/Pour.lean. -/
theorem Inline.C117_plain [DecidableEq A] (E : Env) (L : Layout A) (src : Source τ A) (dp : A → Bool) (k fuel : Nat) :
    extendBy E L src dp fuel = M.shift (extendWith E L (Elem.beside dp) src.beside fuel) ∧
    fromIterBy E L src dp k fuel = fromIterWith E L (Elem.beside dp) src.beside k fuel := by
  have h : ∀ a, (M.atFst (pushOwned E L dp a) : M ((Inline A × τ) × List A) Unit) = M.shift (pushOwnedBy E L (Elem.beside dp) a) :=
    fun a => Fill.atFst_push dp _ a
  have hd : (M.atFst (drop E L dp) : M ((Inline A × τ) × List A) Unit) = M.shift (dropBy E L (Elem.beside dp)) := Fill.slice_shift dp (items E L)
  refine ⟨Fill.pour_shift src h fuel, ?_⟩
  unfold fromIterBy fromIterWith
  simp only [Fill.gather_shift src h hd fuel]
  rfl


/-! ### The theorems are not vacuous -/

/-- The user's state is a number.  The iterator counts it down, ends at 0, and panics at 13; being dropped, it adds 1000.  Destroying the item `a`
sets the number to `100 + a`, and panics if it was 7. -/
def countdown : SourceBy Nat Nat where
  next := fun n => if n = 0 then .ok none 0 else if n = 13 then .panic 13 else .ok (some n) (n - 1)
  drop := fun n => .ok () (n + 1000)
def resetting : Elem Nat Nat where
  clone a := pure a
  drop a := fun n => if n = 7 then .panic n else .ok () (100 + a)

open Chunk (dbg64 edge) in
/-- One item fits; the next is destroyed, which sets the number; then the iterator is dropped.  From 8 the destructor panics while the first panic unwinds,
and the process aborts. -/
example : Chunk.View dbg64 3 edge [10, 20] ∧
    (∃ c, Chunk.extendWith dbg64 3 resetting countdown 100 (edge, 5) = .panic (c, 1104) ∧ Chunk.View dbg64 3 c [10, 20, 5]) ∧
    (∃ c, Chunk.extendWith dbg64 3 resetting countdown 100 (edge, 1) = .ok () (c, 1000) ∧ Chunk.View dbg64 3 c [10, 20, 1]) ∧
    Chunk.extendWith dbg64 3 resetting countdown 100 (edge, 9) = .abort :=
  ⟨rfl, ⟨_, rfl, rfl⟩, ⟨_, rfl, rfl⟩, rfl⟩

open Chunk (dbg64) in
/-- Collecting 16, 15, 14 and so on, the iterator panics at 13; it is dropped, then the items are destroyed, front to back. -/
example : Chunk.fromIterWith dbg64 5 resetting countdown 100 16 = .panic 114 ∧
    (∃ c, Chunk.fromIterWith dbg64 5 resetting countdown 100 3 = .ok c 1000 ∧ Chunk.View dbg64 5 c [3, 2, 1]) ∧
    (∃ c, Chunk.collectFromWith dbg64 5 resetting countdown 2 16 = .ok c 14 ∧ Chunk.View dbg64 5 c [16, 15]) ∧
    Chunk.collectFromWith dbg64 5 resetting countdown 4 16 = .panic 114 :=
  ⟨rfl, ⟨_, rfl, rfl⟩, ⟨_, rfl, rfl⟩, rfl⟩

theorem Fill.panicked {V : α → β → Prop} {x : Out σ α} {y : Out σ β} {s : σ} (h : Out.Same V Eq x y) (e : y = .panic s) : x = .panic s := by
  subst e
  cases x <;> simp_all [Out.Same]

theorem Fill.ran {V : α → β → Prop} {x : Out σ α} {y : Out σ β} {b : β} {s : σ} (h : Out.Same V Eq x y) (e : y = .ok b s) :
    ∃ a, x = .ok a s ∧ V a b := by
  subst e
  cases x <;> simp_all [Out.Same]

open Chunk (dbg64) in
/-- The same for a buffer. -/
example : Ring.fromIterWith dbg64 3 resetting countdown 4 15 = .panic 114 ∧ Ring.collectFromWith dbg64 3 resetting countdown 2 1 = .panic 101 :=
  ⟨Fill.panicked (Ring.C117_from_iter (by decide) (by decide) 15 (by decide)) rfl,
    Fill.panicked (Ring.C117_collect_from (by decide) (by decide) 2 1) rfl⟩

/-- Only every third number; the others are `None`. -/
def holey : SourceBy Nat (Option Nat) where
  next := fun n => if n = 0 then .ok none 0 else .ok (some (if n % 3 = 0 then some n else none)) (n - 1)
  drop := countdown.drop

/-- `None, 3, None, None` fits in 4 places, and `None, None, 12, None, None, 9` does not. -/
example : (∃ c m, Sparse.fromIterWith 4 resetting holey 9 4 = .ok c 1000 ∧ Sparse.View 4 c m ∧ m.pairs 4 = [(1, 3)]) ∧
    Sparse.fromIterWith 4 resetting holey 9 14 = .panic 112 := by
  refine ⟨?_, Fill.panicked (Sparse.C117_from_iter 14 9) rfl⟩
  obtain ⟨c, h1, h2⟩ := Fill.ran (Sparse.C117_from_iter (N := 4) (el := resetting) (src := holey) 4 9) rfl
  exact ⟨c, _, h1, h2, rfl⟩

end Verif
