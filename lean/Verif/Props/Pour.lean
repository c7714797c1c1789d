import Verif.Pour
import Verif.Props.Endless
import Verif.Props.ChunkBulk
import Verif.Props.RingBulk
/-
C107: pouring one container into another through its iterator.
-/
namespace Verif
variable {A σ τ : Type} {src : Source τ A} {dp : A → Bool} {S T : τ → List A → Prop} {left : List A → List A}
  {R : σ → List A → Prop} {cap : Nat} {push : A → M (σ × List A) Unit} {dtor : M (σ × List A) Unit}

namespace Source.Models
variable (hm : src.Models dp S T left)
include hm

theorem pull_item {t : τ} {a : A} {k : List A} (h : S t (a :: k)) (s : σ) (log : List A) :
    ∃ t', src.pull ((s, t), log) = .ok (some a) ((s, t'), log) ∧ S t' k := by
  obtain ⟨t', e, h'⟩ := hm.item t a k h
  exact ⟨t', by simp [Source.pull, e], h'⟩
theorem pull_done {t : τ} (h : S t []) (s : σ) (log : List A) :
    ∃ t', src.pull ((s, t), log) = .ok none ((s, t'), log) ∧ S t' [] := by
  obtain ⟨t', e, h'⟩ := hm.done t h
  exact ⟨t', by simp [Source.pull, e], h'⟩
theorem close_eq {t : τ} {k : List A} (h : S t k) (hd : ∀ a ∈ left k, dp a = false) (s : σ) (log : List A) :
    ∃ t', src.close ((s, t), log) = .ok () ((s, t'), log ++ left k) ∧ T t' k := by
  obtain ⟨t', e, h'⟩ := hm.drop t k log h hd
  exact ⟨t', by simp [Source.close, M.atSnd, e], h'⟩
theorem close_done {t : τ} (h : S t []) (s : σ) (log : List A) :
    ∃ t', src.close ((s, t), log) = .ok () ((s, t'), log) ∧ T t' [] := by
  obtain ⟨t', e, h'⟩ := hm.close_eq h (by simp [hm.nothing]) s log
  exact ⟨t', by rw [e, hm.nothing, List.append_nil], h'⟩
theorem size_eq {t : τ} {k : List A} (h : S t k) (s : σ) (log : List A) : src.size ((s, t), log) = .ok k.length ((s, t), log) := by
  simp [Source.size, hm.len t k h]

theorem pourLoop_prefix (hp : PushContract R cap dp push) (k2 : List A) (k1 : List A) : ∀ {s l t}, R s l → S t (k1 ++ k2) → ∀ (log : List A) (f : Nat),
    l.length + k1.length ≤ cap →
    ∃ s' t', R s' (l ++ k1) ∧ S t' k2 ∧ src.pourLoop push (k1.length + f) ((s, t), log) = src.pourLoop push f ((s', t'), log) := by
  induction k1 with
  | nil => intro s l t h ht log f _; exact ⟨s, t, by simpa using h, ht, by simp⟩
  | cons x k1 ih =>
    intro s l t h ht log f hl
    simp only [List.length_cons] at hl
    obtain ⟨t', e, ht'⟩ := hm.pull_item ht s log
    have hx := hp s l h x log
    rw [if_pos (by omega)] at hx
    obtain ⟨⟨s', log'⟩, e', h', rfl⟩ := hx.of_ok rfl
    obtain ⟨s'', t'', h'', ht'', e''⟩ := ih h' ht' log' f (by simp; omega)
    refine ⟨s'', t'', by simpa using h'', ht'', ?_⟩
    rw [List.length_cons, show k1.length + 1 + f = (k1.length + f) + 1 by omega, Source.pourLoop]
    simp only [M.bind_run, e, Out.andThen_ok, M.atFst, e', Out.mapState_ok]
    exact e''

theorem pourLoop_fits (hp : PushContract R cap dp push) {k : List A} {s l t} (h : R s l) (ht : S t k) (log : List A) {fuel : Nat}
    (hf : k.length < fuel) (hl : l.length + k.length ≤ cap) :
    ∃ s' t', src.pourLoop push fuel ((s, t), log) = .ok () ((s', t'), log) ∧ R s' (l ++ k) ∧ S t' [] := by
  obtain ⟨f, rfl⟩ : ∃ f, fuel = k.length + (f + 1) := ⟨fuel - k.length - 1, by omega⟩
  obtain ⟨s', t', h', ht', e⟩ := hm.pourLoop_prefix hp [] k h (by simpa using ht) log (f + 1) hl
  obtain ⟨t'', e', ht''⟩ := hm.pull_done ht' s' log
  refine ⟨s', t'', ?_, h', ht''⟩
  rw [e, Source.pourLoop]
  simp only [M.bind_run, e', Out.andThen_ok, M.pure_run]

theorem pourLoop_over (hp : PushContract R cap dp push) {k1 k2 : List A} {a : A} {s l t} (h : R s l) (ht : S t (k1 ++ a :: k2)) (log : List A)
    {fuel : Nat} (hf : k1.length < fuel) (hl : l.length + k1.length = cap) (hd : dp a = false) :
    ∃ s' t', src.pourLoop push fuel ((s, t), log) = .panic ((s', t'), log ++ [a]) ∧ R s' (l ++ k1) ∧ S t' k2 := by
  obtain ⟨f, rfl⟩ : ∃ f, fuel = k1.length + (f + 1) := ⟨fuel - k1.length - 1, by omega⟩
  obtain ⟨s', t', h', ht', e⟩ := hm.pourLoop_prefix hp (a :: k2) k1 h ht log (f + 1) (by omega)
  obtain ⟨t'', e', ht''⟩ := hm.pull_item ht' s' log
  have hx := hp s' _ h' a log
  rw [if_neg (by simp; omega)] at hx
  obtain ⟨⟨s'', log'⟩, e2, h'', rfl⟩ := hx.of_panic (t := (l ++ k1, log ++ [a])) (by simp [Spec.panicDropping, hd])
  refine ⟨s'', t'', ?_, h'', ht''⟩
  rw [e, Source.pourLoop]
  simp only [M.bind_run, e', Out.andThen_ok, M.atFst, e2, Out.mapState_panic, Out.andThen_panic]

theorem pour_extends (hp : PushContract R cap dp push) {k l log : List A} {s : σ} {t : τ} (h : R s l) (ht : S t k) {fuel : Nat}
    (hf : cap - l.length < fuel) : Extends R T left cap dp l k log (src.pour push fuel ((s, t), log)) where
  fits hl := by
    obtain ⟨s', t', e, h', ht'⟩ := hm.pourLoop_fits hp h ht log (fuel := fuel) (by omega) hl
    obtain ⟨t'', e', ht''⟩ := hm.close_done ht' s' log
    exact ⟨s', t'', by simp [Source.pour, M.onUnwind, e, e'], h', ht''⟩
  overflows k1 a k2 hk hl hd hd2 := by
    subst hk
    obtain ⟨s', t', e, h', ht'⟩ := hm.pourLoop_over hp h ht log (fuel := fuel) (by omega) hl hd
    obtain ⟨t'', e', ht''⟩ := hm.close_eq ht' hd2 s' (log ++ [a])
    exact ⟨s', t'', by simp [Source.pour, M.onUnwind, e, e'], h', ht''⟩

theorem gather_gathers (hp : PushContract R cap dp push) {init : σ} (hi : R init [])
    (hdt : ∀ s l log, R s l → (∀ x, x ∈ l → dp x = false) → ∃ s', dtor (s, log) = .ok () (s', log ++ l)) {k log : List A} {t : τ} (ht : S t k)
    {fuel : Nat} (hf : cap < fuel) : Gathers R T left cap dp k log (src.gather init push dtor fuel (t, log)) where
  fits hl := by
    obtain ⟨s, t', e, h', ht'⟩ := (hm.pour_extends hp (log := log) hi ht (fuel := fuel) (by simpa using hf)).fits (by simpa using hl)
    exact ⟨s, t', by simp [Source.gather, M.withLocal, e], by simpa using h', ht'⟩
  overflows k1 a k2 hk hl hd hd2 hd1 := by
    obtain ⟨s, t', e, h', ht'⟩ := (hm.pour_extends hp (log := log) hi ht (fuel := fuel) (by simpa using hf)).overflows k1 a k2 hk (by simpa using hl) hd hd2
    obtain ⟨s', e'⟩ := hdt s _ (log ++ a :: left k2) h' (by simpa using hd1)
    exact ⟨t', by simp [Source.gather, M.withLocal, e, M.atFst, e'], ht'⟩

end Source.Models

/-! ### Lockstep: the loop over a program and the loop over a list -/

/-- If the run over the list returns, the run over the program returns the same, and the program ends up in a state with `P`. -/
def Mirrors {L α : Type} (P : τ → Prop) (o : Out ((σ × τ) × L) α) (o' : Out (σ × L) α) : Prop :=
  ∀ a s, o' = .ok a s → ∃ t, o = .ok a ((s.1, t), s.2) ∧ P t

namespace Mirrors
variable {L α β : Type} {P Q : τ → Prop}

theorem bind {x : M ((σ × τ) × L) α} {x' : M (σ × L) α} {f : α → M ((σ × τ) × L) β} {f' : α → M (σ × L) β} {s : (σ × τ) × L} {s' : σ × L}
    (h : Mirrors P (x s) (x' s')) (hf : ∀ a c t lg, P t → Mirrors Q (f a ((c, t), lg)) (f' a (c, lg))) :
    Mirrors Q ((x >>= f) s) ((x' >>= f') s') := by
  intro b u hu
  simp only [M.bind_run] at hu ⊢
  cases hx : x' s' with
  | ok a s1 =>
    rw [hx] at hu
    obtain ⟨t, e, ht⟩ := h a s1 hx
    rw [e]
    exact hf a s1.1 t s1.2 ht b u hu
  | panic _ => rw [hx] at hu; cases hu
  | abort => rw [hx] at hu; cases hu
  | ub => rw [hx] at hu; cases hu
  | diverge => rw [hx] at hu; cases hu

theorem own (x : M σ α) {c : σ} {t : τ} {lg : L} (ht : P t) : Mirrors P (M.onFst (M.onFst x) ((c, t), lg)) (M.onFst x (c, lg)) := by
  intro a s hs
  simp only [M.onFst_run] at hs ⊢
  cases hx : x c <;> rw [hx] at hs <;> simp only [Out.mapState] at hs <;> cases hs
  exact ⟨t, by simp, ht⟩

theorem pure (a : α) {c : σ} {t : τ} {lg : L} (ht : P t) : Mirrors P ((Pure.pure a : M ((σ × τ) × L) α) ((c, t), lg)) ((Pure.pure a : M (σ × L) α) (c, lg)) := by
  intro b s hs; cases hs; exact ⟨t, rfl, ht⟩

theorem panic {c : σ} {t : τ} {lg : L} : Mirrors P ((M.panic : M ((σ × τ) × L) α) ((c, t), lg)) ((M.panic : M (σ × L) α) (c, lg)) := by
  intro b s hs; cases hs

theorem ite {p : Prop} [Decidable p] {x y : M ((σ × τ) × L) α} {x' y' : M (σ × L) α} {s : (σ × τ) × L} {s' : σ × L}
    (h1 : p → Mirrors P (x s) (x' s')) (h2 : ¬ p → Mirrors P (y s) (y' s')) :
    Mirrors P ((if p then x else y) s) ((if p then x' else y') s') := by
  split
  · exact h1 ‹_›
  · exact h2 ‹_›

theorem uadd {E : Env} {a b : Nat} {c : σ} {t : τ} {lg : L} (ht : P t) : Mirrors P (uadd E a b ((c, t), lg)) (uadd E a b (c, lg)) := by
  unfold Verif.uadd
  refine ite (fun _ => pure _ ht) fun _ => ite (fun _ => panic) fun _ => pure _ ht

theorem usub {E : Env} {a b : Nat} {c : σ} {t : τ} {lg : L} (ht : P t) : Mirrors P (usub E a b ((c, t), lg)) (usub E a b (c, lg)) := by
  unfold Verif.usub
  refine ite (fun _ => pure _ ht) fun _ => ite (fun _ => panic) fun _ => pure _ ht

theorem assert {p : Prop} [Decidable p] {c : σ} {t : τ} {lg : L} (ht : P t) : Mirrors P (M.assert p ((c, t), lg)) (M.assert p (c, lg)) := by
  unfold M.assert
  exact ite (fun _ => pure _ ht) fun _ => panic

theorem unwind {x : M ((σ × τ) × L) α} {x' : M (σ × L) α} {y : M ((σ × τ) × L) Unit} {y' : M (σ × L) Unit} {s : (σ × τ) × L} {s' : σ × L}
    (h : Mirrors P (x s) (x' s')) : Mirrors P (M.onUnwind x y s) (M.onUnwind x' y' s') := by
  intro a u hu
  have : x' s' = .ok a u := by
    unfold M.onUnwind at hu
    split at hu
    · split at hu <;> cases hu
    · exact hu
  obtain ⟨t, e, ht⟩ := h a u this
  exact ⟨t, by simp only [M.onUnwind, e], ht⟩

end Mirrors

theorem Source.Models.mirrors_close {src : Source τ A} (hm : src.Models dp S T left) {Q : τ → Prop} {β : Type} {f : Unit → M ((σ × τ) × List A) β} {o' : Out (σ × List A) β}
    {c : σ} {t : τ} {lg : List A} (ht : S t []) (h : ∀ t', T t' [] → Mirrors Q (f () ((c, t'), lg)) o') :
    Mirrors Q ((src.close >>= f) ((c, t), lg)) o' := by
  obtain ⟨t', e, ht'⟩ := hm.close_done ht c lg
  simp only [M.bind_run, e, Out.andThen_ok]
  exact h t' ht'

theorem Source.Models.mirrors_size {src : Source τ A} (hm : src.Models dp S T left) {Q : τ → Prop} {β : Type} {y : M ((σ × τ) × List A) Unit} {y' : M (σ × List A) Unit}
    {f : Nat → M ((σ × τ) × List A) β} {f' : Nat → M (σ × List A) β} {c : σ} {t : τ} {lg : List A} {k : List A} (ht : S t k)
    (h : Mirrors Q (f k.length ((c, t), lg)) (f' k.length (c, lg))) :
    Mirrors Q ((M.onUnwind src.size y >>= f) ((c, t), lg)) ((M.onUnwind (M.lenCall (some k.length)) y' >>= f') (c, lg)) := by
  simp only [M.bind_run, M.onUnwind, hm.size_eq ht, M.lenCall, M.pure_run, Out.andThen_ok]
  exact h

namespace Chunk
variable {E : Env} {N : Nat} {c : Chunk A} {l : List A}

theorem writeLoopBy_mirrors (hm : src.Models dp S T left) (k : List A) : ∀ {t : τ} {c : Chunk A} {lg : List A} (w : Nat), S t k →
    Mirrors (S · []) (writeLoopBy E N src k.length w ((c, t), lg)) (writeLoop E N dp k.length (It.ofList k) w (c, lg)) := by
  induction k with
  | nil =>
    intro t c lg w ht a s hs
    simp [writeLoop, It.ofList, It.owned, dropSlice] at hs
    obtain ⟨rfl, rfl⟩ := hs
    exact ⟨t, rfl, ht⟩
  | cons x k ih =>
    intro t c lg w ht
    obtain ⟨t', e, ht'⟩ := hm.pull_item ht c lg
    simp only [List.length_cons, writeLoopBy, writeLoop, It.ofList, List.map_cons]
    intro a s hs
    rw [M.bind_run, e, Out.andThen_ok]
    refine Mirrors.bind (Mirrors.own (P := (S · k)) _ ht') (fun _ c t lg ht => ?_) a s hs
    refine Mirrors.bind (Mirrors.uadd (P := (S · k)) ht) (fun w c t lg ht => ?_)
    exact ih w ht

theorem writeFromIterBy_mirrors (hm : src.Models dp S T left) {k : List A} {t : τ} {c : Chunk A} {lg : List A} (w : Nat) (ht : S t k) :
    Mirrors (T · []) (writeFromIterBy E N src w ((c, t), lg)) (writeFromIter E N dp w (some k.length) (It.ofList k) (c, lg)) := by
  unfold writeFromIterBy writeFromIter
  refine Mirrors.bind (Mirrors.own (P := (S · k)) _ ht) (fun left c t lg ht => ?_)
  refine Mirrors.bind (Mirrors.own (P := (S · k)) _ ht) (fun _ c t lg ht => ?_)
  refine Mirrors.bind (Mirrors.own (P := (S · k)) _ ht) (fun right c t lg ht => ?_)
  refine Mirrors.bind (Mirrors.own (P := (S · k)) _ ht) (fun _ c t lg ht => ?_)
  refine hm.mirrors_size ht ?_
  refine Mirrors.bind (Mirrors.unwind (Mirrors.uadd (P := (S · k)) ht)) (fun expected c t lg ht => ?_)
  refine Mirrors.bind (P := (S · [])) (?_) (fun w' c t lg ht => hm.mirrors_close ht fun t ht => ?_)
  · intro a s hs
    obtain ⟨t', e, ht'⟩ := writeLoopBy_mirrors (E := E) (N := N) hm k w ht a s hs
    exact ⟨t', by simp only [M.onUnwind, e], ht'⟩
  refine Mirrors.bind (Mirrors.assert (P := (T · [])) ht) (fun _ c t lg ht => ?_)
  refine Mirrors.bind (Mirrors.own (P := (T · [])) _ ht) (fun _ c t lg ht => ?_)
  exact Mirrors.own _ ht

theorem insertFromBy_mirrors (hm : src.Models dp S T left) {k : List A} {t : τ} {c : Chunk A} {lg : List A} (i : Nat) (ht : S t k) :
    Mirrors (T · []) (insertFromBy E N src i ((c, t), lg)) (insertFrom E N dp i (ExactIt.ofList k) (c, lg)) := by
  unfold insertFromBy insertFrom ExactIt.ofList
  refine hm.mirrors_size ht ?_
  refine Mirrors.bind (Mirrors.unwind (Mirrors.own (P := (S · k)) _ ht)) (fun _ c t lg ht => ?_)
  refine Mirrors.bind (Mirrors.own (P := (S · k)) _ ht) (fun _ c t lg ht => ?_)
  refine Mirrors.bind (Mirrors.uadd (P := (S · k)) ht) (fun _ c t lg ht => ?_)
  refine Mirrors.bind (Mirrors.own (P := (S · k)) _ ht) (fun _ c t lg ht => ?_)
  refine Mirrors.bind (Mirrors.usub (P := (S · k)) ht) (fun _ c t lg ht => ?_)
  refine Mirrors.bind (Mirrors.own (P := (S · k)) _ ht) (fun _ c t lg ht => ?_)
  refine Mirrors.bind (Mirrors.own (P := (S · k)) _ ht) (fun _ c t lg ht => ?_)
  refine Mirrors.ite (fun _ => ?_) (fun _ => ?_)
  · refine Mirrors.bind (Mirrors.own (P := (S · k)) _ ht) (fun _ c t lg ht => ?_)
    refine Mirrors.bind (Mirrors.usub (P := (S · k)) ht) (fun _ c t lg ht => ?_)
    refine Mirrors.bind (writeFromIterBy_mirrors hm _ ht) (fun _ c t lg ht => ?_)
    exact Mirrors.own _ ht
  refine Mirrors.bind (Mirrors.own (P := (S · k)) _ ht) (fun _ c t lg ht => ?_)
  refine Mirrors.bind (Mirrors.own (P := (S · k)) _ ht) (fun _ c t lg ht => ?_)
  refine Mirrors.bind (Mirrors.uadd (P := (S · k)) ht) (fun _ c t lg ht => ?_)
  refine Mirrors.ite (fun _ => ?_) (fun _ => ?_)
  · refine Mirrors.bind (Mirrors.own (P := (S · k)) _ ht) (fun _ c t lg ht => ?_)
    refine Mirrors.bind (writeFromIterBy_mirrors hm _ ht) (fun _ c t lg ht => ?_)
    exact Mirrors.own _ ht
  · refine Mirrors.bind (Mirrors.own (P := (S · k)) _ ht) (fun _ c t lg ht => ?_)
    refine Mirrors.bind (writeFromIterBy_mirrors hm _ ht) (fun _ c t lg ht => ?_)
    refine Mirrors.bind (Mirrors.own (P := (T · [])) _ ht) (fun _ c t lg ht => ?_)
    refine Mirrors.bind (Mirrors.own (P := (T · [])) _ ht) (fun _ c t lg ht => ?_)
    exact Mirrors.own _ ht

theorem checks_refuse (hN : 2 * N < E.W) (h : View E N c l) {i n : Nat} (hn : E.debug = true ∨ N + n < E.W) (hb : N < l.length + n ∨ l.length < i) :
    insertFromChecks E N i n c = .panic c := by
  have hr := h.rep hN
  have hl := len_eq (E := E) hr
  have hle := hr.length_le
  by_cases h1 : l.length + n < E.W
  · by_cases h2 : N < l.length + n
    · simp [insertFromChecks, hl, uadd, h1, h2]
    · simp [insertFromChecks, hl, uadd, h1, h2, show l.length < i by omega]
  · simp [insertFromChecks, hl, uadd, h1, show E.debug = true by rcases hn with hn | hn; exact hn; omega]

/-- C107. `insert_from` on a chunk with any well-behaved iterator program: if all its items fit they are inserted at the index, in order; if not,
or if the index is past the end, the call panics, the chunk is unchanged, and the iterator keeps (or, if it owns them, destroys) its items. -/
theorem C107_insert_from (hN : 2 * N < E.W) (h : View E N c l) (hm : src.Models dp S T left) {t : τ} {k : List A} (ht : S t k) (i : Nat) (log : List A)
    (hk : E.debug = true ∨ N + k.length < E.W) :
    Inserts (View E N) T left N dp i l k log (insertFromBy E N src i ((c, t), log)) where
  fits hl hi := by
    obtain ⟨⟨s, log'⟩, e, hs, hlog⟩ := C09_insert_from (dp := dp) hN h i k log hl hi
    obtain ⟨t', e', ht'⟩ := insertFromBy_mirrors hm i ht _ _ e
    simp only at hlog; subst hlog
    exact ⟨s, t', e', hs, ht'⟩
  refuses hb hd := by
    have e := checks_refuse hN h hk hb
    obtain ⟨t', e', ht'⟩ := hm.close_eq ht hd c log
    refine ⟨c, t', ?_, h, ht'⟩
    simp [insertFromBy, M.onUnwind, hm.size_eq ht, e, e']

/-- C107. `extend` on a chunk with any well-behaved iterator program. -/
theorem C107_extend (hN : 2 * N < E.W) (h : View E N c l) (hm : src.Models dp S T left) {t : τ} {k : List A} (ht : S t k) (log : List A) {fuel : Nat}
    (hf : N < fuel) : Extends (View E N) T left N dp l k log (extendBy E N src dp fuel ((c, t), log)) :=
  hm.pour_extends (pushContract hN dp) h ht (by omega)

/-- C107. `from_iter` (`collect`) into a chunk with any well-behaved iterator program. -/
theorem C107_from_iter (hN : 2 * N < E.W) (hm : src.Models dp S T left) {t : τ} {k : List A} (ht : S t k) (log : List A) {fuel : Nat}
    (hf : N < fuel) : Gathers (View E N) T left N dp k log (fromIterBy E N src dp fuel (t, log)) :=
  hm.gather_gathers (pushContract hN dp) ((Rep.empty rfl rfl : Rep N new []).view E) (fun _ _ log h => (C88_drop_and_clear hN h dp log).1.1) ht hf

theorem collectLoopBy_prefix (hN : 2 * N < E.W) (hm : src.Models dp S T left) (k2 : List A) (k1 : List A) : ∀ {c : Chunk A} {l : List A} {t : τ}, View E N c l →
    S t (k1 ++ k2) → ∀ (log : List A) (n : Nat), l.length + k1.length ≤ N →
    ∃ c' t', View E N c' (l ++ k1) ∧ S t' k2 ∧ collectLoopBy E N src dp (k1.length + n) ((c, t), log) = collectLoopBy E N src dp n ((c', t'), log) := by
  induction k1 with
  | nil => intro c l t h ht log n _; exact ⟨c, t, by simpa using h, ht, by simp⟩
  | cons x k1 ih =>
    intro c l t h ht log n hl
    simp only [List.length_cons] at hl
    obtain ⟨t', e, ht'⟩ := hm.pull_item ht c log
    have hx := pushContract hN dp c l h x log
    rw [if_pos (by omega)] at hx
    obtain ⟨⟨s', log'⟩, e', h', rfl⟩ := hx.of_ok rfl
    obtain ⟨s'', t'', h'', ht'', e''⟩ := ih h' ht' log' n (by simp; omega)
    refine ⟨s'', t'', by simpa using h'', ht'', ?_⟩
    rw [List.length_cons, show k1.length + 1 + n = (k1.length + n) + 1 by omega, collectLoopBy]
    simp only [M.bind_run, e, Out.andThen_ok, M.atFst, e', Out.mapState_ok]
    exact e''

/-- C107. `collect_from` into a chunk with any well-behaved iterator program, which the call only borrows. -/
theorem C107_collect_from (hN : 2 * N < E.W) (hm : src.Models dp S T left) {t : τ} {k : List A} (ht : S t k) (n : Nat) (log : List A) :
    Collects (View E N) S N dp n k log (collectFromBy E N src dp n (t, log)) := by
  have h0 : View E N (new : Chunk A) [] := (Rep.empty rfl rfl : Rep N new []).view E
  constructor
  · intro hk hn
    obtain ⟨c, t', h', ht', e⟩ := collectLoopBy_prefix hN hm (k.drop n) (k.take n) h0 (by rwa [List.take_append_drop]) log 0
      (by simp; omega)
    rw [List.length_take, show min n k.length + 0 = n by omega] at e
    exact ⟨c, t', by simp [collectFromBy, M.withLocal, e, collectLoopBy], by simpa using h', ht'⟩
  · intro hk hn hd
    obtain ⟨c, t', h', ht', e⟩ := collectLoopBy_prefix hN hm [] k h0 (by simpa using ht) log (n - k.length - 1 + 1) (by simpa using hn)
    rw [show k.length + (n - k.length - 1 + 1) = n by omega] at e
    obtain ⟨t'', e', ht''⟩ := hm.pull_done ht' c log
    obtain ⟨c', ed⟩ := (C88_drop_and_clear hN h' dp log).1.1 (by simpa using hd)
    exact ⟨t'', by simp [collectFromBy, M.withLocal, e, collectLoopBy, e', M.atFst, ed], ht''⟩
  · intro k1 a k2 hk h1 hn hda hd
    subst hk
    obtain ⟨c, t', h', ht', e⟩ := collectLoopBy_prefix hN hm (a :: k2) k1 h0 ht log (n - k1.length - 1 + 1) (by simp; omega)
    rw [show k1.length + (n - k1.length - 1 + 1) = n by omega] at e
    obtain ⟨t'', e', ht''⟩ := hm.pull_item ht' c log
    have hx := pushContract hN dp c _ h' a log
    rw [if_neg (by simp; omega)] at hx
    obtain ⟨⟨c2, log'⟩, e2, h2, rfl⟩ := hx.of_panic (t := ([] ++ k1, log ++ [a])) (by simp [Spec.panicDropping, hda])
    obtain ⟨c', ed⟩ := (C88_drop_and_clear hN h2 dp (log ++ [a])).1.1 (by simpa using hd)
    exact ⟨t'', by simp [collectFromBy, M.withLocal, e, collectLoopBy, e', M.atFst, e2, ed], ht''⟩

end Chunk

namespace Ring
variable {E : Env} {N : Nat} {c : Ring A} {l : List A}

theorem addLoop_mirrors {P : τ → Prop} {L : Type} (f : Nat) : ∀ (r : Nat) {c : σ} {t : τ} {lg : L}, P t →
    Mirrors P (addLoop E N f r ((c, t), lg)) (addLoop E N f r (c, lg)) := by
  induction f with
  | zero => intro r c t lg ht a s hs; cases hs
  | succ f ih =>
    intro r c t lg ht
    unfold addLoop
    refine Mirrors.ite (fun _ => ?_) fun _ => Mirrors.pure _ ht
    exact Mirrors.bind (Mirrors.usub ht) fun _ _ _ _ ht => ih _ ht

theorem rawAddAssign_mirrors {P : τ → Prop} {L : Type} {i k : Nat} {c : σ} {t : τ} {lg : L} (ht : P t) :
    Mirrors P (rawAddAssign E N i k ((c, t), lg)) (rawAddAssign E N i k (c, lg)) := by
  unfold rawAddAssign
  exact Mirrors.bind (Mirrors.uadd ht) fun _ _ _ _ ht => addLoop_mirrors _ _ ht

theorem writeLoopBy_mirrors (hm : src.Models dp S T left) (k : List A) : ∀ {t : τ} {c : Ring A} {lg : List A} (p n : Nat), S t k →
    Mirrors (S · []) (writeLoopBy E N src k.length p n ((c, t), lg)) (writeLoop E N dp k.length (It.ofList k) p n (c, lg)) := by
  induction k with
  | nil =>
    intro t c lg p n ht a s hs
    simp [writeLoop, It.ofList, It.owned, dropSlice] at hs
    obtain ⟨rfl, rfl⟩ := hs
    exact ⟨t, rfl, ht⟩
  | cons x k ih =>
    intro t c lg p n ht
    obtain ⟨t', e, ht'⟩ := hm.pull_item ht c lg
    simp only [List.length_cons, writeLoopBy, writeLoop, It.ofList, List.map_cons]
    intro a s hs
    rw [M.bind_run, e, Out.andThen_ok]
    refine Mirrors.bind (Mirrors.own (P := (S · k)) _ ht') (fun _ c t lg ht => ?_) a s hs
    refine Mirrors.bind (rawAddAssign_mirrors (P := (S · k)) ht) (fun _ c t lg ht => ?_)
    refine Mirrors.bind (Mirrors.uadd (P := (S · k)) ht) (fun w c t lg ht => ?_)
    exact ih _ _ ht

theorem fillGapBy_mirrors (hm : src.Models dp S T left) {k : List A} {t : τ} {c : Ring A} {lg : List A} (i : Nat) (ht : S t k) :
    Mirrors (T · []) (fillGapBy E N src i k.length ((c, t), lg)) (fillGap E N dp i k.length (It.ofList k) (c, lg)) := by
  unfold fillGapBy fillGap
  refine Mirrors.bind (Mirrors.own (P := (S · k)) _ ht) (fun p c t lg ht => ?_)
  refine Mirrors.bind (Mirrors.own (P := (S · k)) _ ht) (fun _ c t lg ht => ?_)
  refine Mirrors.bind (Mirrors.own (P := (S · k)) _ ht) (fun _ c t lg ht => ?_)
  refine Mirrors.bind (P := (S · [])) (?_) (fun w' c t lg ht => hm.mirrors_close ht fun t ht => ?_)
  · intro a s hs
    obtain ⟨t', e, ht'⟩ := writeLoopBy_mirrors (E := E) (N := N) hm k p 0 ht a s hs
    exact ⟨t', by simp only [M.onUnwind, e], ht'⟩
  refine Mirrors.bind (Mirrors.assert (P := (T · [])) ht) (fun _ c t lg ht => ?_)
  exact Mirrors.own _ ht

theorem checks_refuse (h : Rep N c l) {i n : Nat} (hn : E.debug = true ∨ N + n < E.W) (hb : N < l.length + n ∨ l.length < i) :
    insertFromChecks E N i n c = .panic c := by
  have hl := getLen_eq h
  have hle := h.length_le
  by_cases h1 : l.length + n < E.W
  · by_cases h2 : N < l.length + n
    · simp [insertFromChecks, hl, uadd, h1, h2]
    · simp [insertFromChecks, hl, uadd, h1, h2, show l.length < i by omega]
  · simp [insertFromChecks, hl, uadd, h1, show E.debug = true by rcases hn with hn | hn; exact hn; omega]

theorem checks_pass (h : Rep N c l) (hW : 2 * N < E.W) {i n : Nat} (hn : l.length + n ≤ N) (hi : i ≤ l.length) : insertFromChecks E N i n c = .ok () c := by
  have hl := getLen_eq h
  simp [insertFromChecks, hl, uadd, show l.length + n < E.W by omega, show ¬ N < l.length + n by omega, show ¬ l.length < i by omega]

/-- C107. `insert_from` on a buffer with any well-behaved iterator program: if all its items fit they are inserted at the index, in order; if not,
or if the index is past the end, the call panics, the buffer is unchanged, and the iterator keeps (or, if it owns them, destroys) its items. -/
theorem C107_insert_from (hW : 2 * N < E.W) (h : View E N c l) (hm : src.Models dp S T left) {t : τ} {k : List A} (ht : S t k) (i : Nat) (log : List A)
    (hk : E.debug = true ∨ N + k.length < E.W) {fuel : Nat} (hf : N < fuel) :
    Inserts (View E N) T left N dp i l k log (insertFromBy E N src dp i fuel ((c, t), log)) where
  fits hl hi := by
    have hr := h.rep hW
    have hc := checks_pass (E := E) hr hW hl hi
    have hlen := getLen_eq hr
    by_cases he : i = l.length
    · obtain ⟨s, t', e, hs, ht'⟩ := (hm.pour_extends (log := log) (pushContract hW dp) h ht (fuel := fuel) (by omega)).fits hl
      refine ⟨s, t', ?_, by simpa [he] using hs, ht'⟩
      subst he
      simp only [insertFromBy, M.bind_run, M.onUnwind, hm.size_eq ht, hc, hlen, Out.andThen_ok, M.onFst_run, Out.mapState_ok, if_true]
      exact e
    · obtain ⟨⟨s, log'⟩, e, hs, hlog⟩ := C31_insert_from (dp := dp) hW h i k log hl hi
      simp only at hlog; subst hlog
      have key : Mirrors (T · []) (insertFromBy E N src dp i fuel ((c, t), log')) (insertFrom E N dp i (some k.length) (It.ofList k) (c, log')) := by
        unfold insertFromBy insertFrom
        refine hm.mirrors_size ht ?_
        simp only [M.bind_run, M.onUnwind, hc, hlen, Out.andThen_ok, M.onFst_run, Out.mapState_ok, he, if_false]
        refine Mirrors.bind (Mirrors.usub (P := (S · k)) ht) (fun _ c t lg ht => ?_)
        exact Mirrors.ite (fun _ => Mirrors.bind (Mirrors.own (P := (S · k)) _ ht) fun _ c t lg ht => fillGapBy_mirrors hm i ht)
          fun _ => Mirrors.bind (Mirrors.own (P := (S · k)) _ ht) fun _ c t lg ht => fillGapBy_mirrors hm i ht
      obtain ⟨t', e', ht'⟩ := key _ _ e
      exact ⟨s, t', e', hs, ht'⟩
  refuses hb hd := by
    have e := checks_refuse (h.rep hW) hk hb
    obtain ⟨t', e', ht'⟩ := hm.close_eq ht hd c log
    refine ⟨c, t', ?_, h, ht'⟩
    simp [insertFromBy, M.onUnwind, hm.size_eq ht, e, e']

/-- C107. `extend` on a buffer with any well-behaved iterator program. -/
theorem C107_extend (hW : 2 * N < E.W) (h : View E N c l) (hm : src.Models dp S T left) {t : τ} {k : List A} (ht : S t k) (log : List A) {fuel : Nat}
    (hf : N < fuel) : Extends (View E N) T left N dp l k log (extendBy E N src dp fuel ((c, t), log)) :=
  hm.pour_extends (pushContract hW dp) h ht (by omega)

theorem new_run (hN : 0 < N) (s : σ) : (new E N : M σ (Ring A)) s = .ok ⟨0, 0, Mem.uninit⟩ s := by
  have : Sat ((new E N : M σ (Ring A)) s) (fun c s' => c = ⟨0, 0, Mem.uninit⟩ ∧ s' = s) (fun _ => False) False := sat_new hN ⟨rfl, rfl⟩
  cases h : (new E N : M σ (Ring A)) s <;> simp_all [Sat]

theorem drop_all (hN : 0 < N) (hW : 2 * N < E.W) (dp : A → Bool) : ∀ s l log, View E N s l → (∀ x, x ∈ l → dp x = false) →
    ∃ s', drop E N dp (s, log) = .ok () (s', log ++ l) :=
  fun _ _ log h => (C88_drop_and_clear_partial hN hW h dp log).1.1

/-- C107. `from_iter` (`collect`) into a buffer with any well-behaved iterator program. -/
theorem C107_from_iter (hN : 0 < N) (hW : 2 * N < E.W) (hm : src.Models dp S T left) {t : τ} {k : List A} (ht : S t k) (log : List A) {fuel : Nat}
    (hf : N < fuel) : Gathers (View E N) T left N dp k log (fromIterBy E N src dp fuel (t, log)) := by
  have e : fromIterBy E N src dp fuel (t, log) = src.gather ⟨0, 0, Mem.uninit⟩ (pushBackOwned E N dp) (drop E N dp) fuel (t, log) := by
    simp [fromIterBy, M.onUnwind, new_run hN]
  rw [e]
  exact hm.gather_gathers (pushContract hW dp) ((Rep.empty hN : Rep N ⟨0, 0, Mem.uninit⟩ []).view hW) (drop_all hN hW dp) ht hf

theorem takeLoopBy_prefix (hW : 2 * N < E.W) (hm : src.Models dp S T left) (k2 : List A) (k1 : List A) : ∀ {c : Ring A} {l : List A} {t : τ}, View E N c l →
    S t (k1 ++ k2) → ∀ (log : List A) (n : Nat), l.length + k1.length ≤ N →
    ∃ c' t', View E N c' (l ++ k1) ∧ S t' k2 ∧ takeLoopBy E N src dp (k1.length + n) ((c, t), log) = takeLoopBy E N src dp n ((c', t'), log) := by
  induction k1 with
  | nil => intro c l t h ht log n _; exact ⟨c, t, by simpa using h, ht, by simp⟩
  | cons x k1 ih =>
    intro c l t h ht log n hl
    simp only [List.length_cons] at hl
    obtain ⟨t', e, ht'⟩ := hm.pull_item ht c log
    have hx := pushContract hW dp c l h x log
    rw [if_pos (by omega)] at hx
    obtain ⟨⟨s', log'⟩, e', h', rfl⟩ := hx.of_ok rfl
    obtain ⟨s'', t'', h'', ht'', e''⟩ := ih h' ht' log' n (by simp; omega)
    refine ⟨s'', t'', by simpa using h'', ht'', ?_⟩
    rw [List.length_cons, show k1.length + 1 + n = (k1.length + n) + 1 by omega, takeLoopBy]
    simp only [M.bind_run, e, Out.andThen_ok, M.atFst, e', Out.mapState_ok]
    exact e''

/-- C107. `collect_from` into a buffer with any well-behaved iterator program, which the call only borrows. -/
theorem C107_collect_from (hN : 0 < N) (hW : 2 * N < E.W) (hm : src.Models dp S T left) {t : τ} {k : List A} (ht : S t k) (n : Nat) (log : List A) :
    Collects (View E N) S N dp n k log (collectFromBy E N src dp n (t, log)) := by
  have h0 : View E N (⟨0, 0, Mem.uninit⟩ : Ring A) [] := (Rep.empty hN : Rep N ⟨0, 0, Mem.uninit⟩ []).view hW
  constructor
  · intro hk hn
    obtain ⟨c, t', h', ht', e⟩ := takeLoopBy_prefix hW hm (k.drop n) (k.take n) h0 (by rwa [List.take_append_drop]) log 0
      (by simp; omega)
    rw [List.length_take, show min n k.length + 0 = n by omega] at e
    have hl := getLen_eq (h'.rep hW)
    exact ⟨c, t', by simp [collectFromBy, M.withLocal, e, takeLoopBy, new_run hN, hl, Nat.min_eq_left hk], by simpa using h', ht'⟩
  · intro hk hn hd
    obtain ⟨c, t', h', ht', e⟩ := takeLoopBy_prefix hW hm [] k h0 (by simpa using ht) log (n - k.length - 1 + 1) (by simpa using hn)
    rw [show k.length + (n - k.length - 1 + 1) = n by omega] at e
    obtain ⟨t'', e', ht''⟩ := hm.pull_done ht' c log
    obtain ⟨c', ed⟩ := drop_all hN hW dp _ _ log h' (by simpa using hd)
    have hl := getLen_eq (h'.rep hW)
    refine ⟨t'', ?_, ht''⟩
    simp [collectFromBy, M.withLocal, e, takeLoopBy, e', M.atFst, ed, new_run hN, hl, hk]
  · intro k1 a k2 hk h1 hn hda hd
    subst hk
    obtain ⟨c, t', h', ht', e⟩ := takeLoopBy_prefix hW hm (a :: k2) k1 h0 ht log (n - k1.length - 1 + 1) (by simp; omega)
    rw [show k1.length + (n - k1.length - 1 + 1) = n by omega] at e
    obtain ⟨t'', e', ht''⟩ := hm.pull_item ht' c log
    have hx := pushContract hW dp c _ h' a log
    rw [if_neg (by simp; omega)] at hx
    obtain ⟨⟨c2, log'⟩, e2, h2, rfl⟩ := hx.of_panic (t := ([] ++ k1, log ++ [a])) (by simp [Spec.panicDropping, hda])
    obtain ⟨c', ed⟩ := drop_all hN hW dp _ _ (log ++ [a]) h2 (by simpa using hd)
    exact ⟨t'', by simp [collectFromBy, M.withLocal, e, takeLoopBy, e', M.atFst, e2, ed, new_run hN], ht''⟩

end Ring

namespace Inline
variable [DecidableEq A] {E : Env} {L : Layout A} {dp' : A → Bool} {cl : A → Option A} {s : Inline A} {l : List A}

/-- C107. `extend` on an inline array with any well-behaved iterator program. -/
theorem C107_extend (hv : L.Valid E) (hr : Reachable E L dp' cl s) (h : View E L s l) (hm : src.Models dp S T left) {t : τ} {k : List A} (ht : S t k)
    (log : List A) {fuel : Nat} (hf : Inline.cap E L < fuel) : Extends (View E L) T left (Inline.cap E L) dp l k log (extendBy E L src dp fuel ((s, t), log)) := by
  have hx := hm.pour_extends (log := log) (pushContract hv dp) (hr.rep_of_view hv h) ht (fuel := fuel) (by omega)
  constructor
  · intro hl
    obtain ⟨s, t, e, h, ht⟩ := hx.fits hl
    exact ⟨s, t, e, h.view hv, ht⟩
  · intro k1 a k2 hk hl hd hd2
    obtain ⟨s, t, e, h, ht⟩ := hx.overflows k1 a k2 hk hl hd hd2
    exact ⟨s, t, e, h.view hv, ht⟩

/-- C107. `from_iter` (`collect`) into an inline array with any well-behaved iterator program. -/
theorem C107_from_iter (hv : L.Valid E) {j : Nat} {init : Inline A} (hi : new E L j () = .ok init ()) (hm : src.Models dp S T left) {t : τ} {k : List A} (ht : S t k)
    (log : List A) {fuel : Nat} (hf : Inline.cap E L < fuel) : Gathers (View E L) T left (Inline.cap E L) dp k log (fromIterBy E L src dp j fuel (t, log)) := by
  have hr : Rep E L init [] := by
    have := new_ref hv j
    rw [hi] at this
    split at this
    · obtain ⟨_, _, e, h, -⟩ := RefV.of_ok this rfl
      cases e; exact h
    · simp [RefV, Sat] at this
  have e : fromIterBy E L src dp j fuel (t, log) = src.gather init (pushOwned E L dp) (drop E L dp) fuel (t, log) := by
    simp [fromIterBy, M.onUnwind, make, hi]
  rw [e]
  have hx := hm.gather_gathers (log := log) (pushContract hv dp) hr (fun _ _ log h => (DestroysAll.of_ref (drop_ref hv h dp log)).1) ht hf
  exact ⟨fun hl => let ⟨s, t, e, h, ht⟩ := hx.fits hl; ⟨s, t, e, h.view hv, ht⟩, hx.overflows⟩

/-- C107. If the item and host types do not go together, so that `new` panics, `from_iter` drops the iterator. -/
theorem C107_from_iter_refused {j : Nat} (hi : new E L j () = .panic ()) (hm : src.Models dp S T left) {t : τ} {k : List A} (ht : S t k) (log : List A)
    (hd : ∀ x ∈ left k, dp x = false) (fuel : Nat) : ∃ t', fromIterBy E L src dp j fuel (t, log) = .panic (t', log ++ left k) ∧ T t' k := by
  obtain ⟨t', e, h'⟩ := hm.drop t k log ht hd
  exact ⟨t', by simp [fromIterBy, M.onUnwind, make, hi, e], h'⟩

end Inline

/-! ### The containers' own iterators -/

theorem exactLen_eq {hint : M τ (Nat × Option Nat)} {t : τ} {n : Nat} (h : hint t = .ok (n, some n) t) : exactLen hint t = .ok n t := by
  simp [exactLen, h]

namespace Chunk
variable {E : Env} {N : Nat}

theorem forwards (hN : 2 * N < E.W) {dp : A → Bool} {T : Chunk A → List A → Prop} {left : List A → List A} {dr : M (Chunk A × List A) Unit}
    (hd : ∀ t k log, View E N t k → (∀ a ∈ left k, dp a = false) → ∃ t', dr (t, log) = .ok () (t', log ++ left k) ∧ T t' k) (h0 : left [] = []) :
    (⟨exactLen (sizeHint E), iterNext E N, dr⟩ : Source (Chunk A) A).Models dp (View E N) T left where
  len t k h := exactLen_eq (sizeHint_eq (h.rep hN))
  done t h := by
    obtain ⟨t', e, h'⟩ := (Ref.view (E := E) (iterNext_ref (E := E) (by omega) (h.rep hN))).of_ok rfl
    exact ⟨t', e, h'⟩
  item t a k h := by
    obtain ⟨t', e, h'⟩ := (Ref.view (E := E) (iterNext_ref (E := E) (by omega) (h.rep hN))).of_ok rfl
    exact ⟨t', e, h'⟩
  drop := hd
  nothing := h0

/-- C107. `drain()` on a chunk yields its items, and leaves those it has not yielded in the chunk, also when it is dropped. -/
theorem C107_drain (hN : 2 * N < E.W) (dp : A → Bool) : (draining E N : Source (Chunk A) A).Models dp (View E N) (View E N) (fun _ => []) :=
  forwards hN (fun t _ _ h _ => ⟨t, by simp, h⟩) rfl

/-- C107. `into_iter()` on a chunk yields its items, and destroys those it has not yielded when it is dropped. -/
theorem C107_into_iter (hN : 2 * N < E.W) (dp : A → Bool) : (consuming E N dp).Models dp (View E N) (fun _ _ => True) (fun k => k) :=
  forwards hN (fun _ _ log h hd => let ⟨t', e⟩ := (C88_drop_and_clear hN h dp log).1.1 hd; ⟨t', e, trivial⟩) rfl

/-- C107. `drain().rev()` on a chunk. -/
theorem C107_drain_rev (hN : 2 * N < E.W) (dp : A → Bool) : (drainingBack E N : Source (Chunk A) A).Models dp
    (fun c k => View E N c k.reverse) (fun c k => View E N c k.reverse) (fun _ => []) where
  len t k h := by simpa [drainingBack] using exactLen_eq (sizeHint_eq (E := E) (h.rep hN))
  done t h := by
    obtain ⟨t', e, h'⟩ := (Ref.view (E := E) (iterNextBack_ref (E := E) (h.rep hN))).of_ok rfl
    exact ⟨t', e, h'⟩
  item t a k h := by
    obtain ⟨t', e, h'⟩ := (Ref.view (E := E) (iterNextBack_ref (E := E) (h.rep hN))).of_ok rfl
    exact ⟨t', by simpa [drainingBack] using e, by simpa using h'⟩
  drop t k log h _ := ⟨t, by simp [drainingBack], h⟩
  nothing := rfl

end Chunk

namespace Ring
variable {E : Env} {N : Nat}

theorem forwards (hW : 2 * N < E.W) {dp : A → Bool} {T : Ring A → List A → Prop} {left : List A → List A} {dr : M (Ring A × List A) Unit}
    (hd : ∀ t k log, View E N t k → (∀ a ∈ left k, dp a = false) → ∃ t', dr (t, log) = .ok () (t', log ++ left k) ∧ T t' k) (h0 : left [] = []) :
    (⟨exactLen sizeHint, popFront E N, dr⟩ : Source (Ring A) A).Models dp (View E N) T left where
  len t k h := exactLen_eq (sizeHint_eq (h.rep hW))
  done t h := by
    obtain ⟨t', e, h'⟩ := (Ref.view (E := E) hW (popFront_ref hW (h.rep hW))).of_ok rfl
    exact ⟨t', e, h'⟩
  item t a k h := by
    obtain ⟨t', e, h'⟩ := (Ref.view (E := E) hW (popFront_ref hW (h.rep hW))).of_ok rfl
    exact ⟨t', e, h'⟩
  drop := hd
  nothing := h0

/-- C107. `drain()` on a buffer yields its items, and leaves those it has not yielded in the buffer, also when it is dropped. -/
theorem C107_drain (hW : 2 * N < E.W) (dp : A → Bool) : (draining E N : Source (Ring A) A).Models dp (View E N) (View E N) (fun _ => []) :=
  forwards hW (fun t _ _ h _ => ⟨t, by simp, h⟩) rfl

/-- C107. `into_iter()` on a buffer yields its items, and destroys those it has not yielded when it is dropped. -/
theorem C107_into_iter (hN : 0 < N) (hW : 2 * N < E.W) (dp : A → Bool) : (consuming E N dp).Models dp (View E N) (fun _ _ => True) (fun k => k) :=
  forwards hW (fun t k log h hd => let ⟨t', e⟩ := drop_all hN hW dp t k log h hd; ⟨t', e, trivial⟩) rfl

/-- C107. `drain().rev()` on a buffer. -/
theorem C107_drain_rev (hW : 2 * N < E.W) (dp : A → Bool) : (drainingBack E N : Source (Ring A) A).Models dp
    (fun c k => View E N c k.reverse) (fun c k => View E N c k.reverse) (fun _ => []) where
  len t k h := by simpa [drainingBack] using exactLen_eq (sizeHint_eq (h.rep hW))
  done t h := by
    obtain ⟨t', e, h'⟩ := (Ref.view (E := E) hW (popBack_ref hW (h.rep hW))).of_ok rfl
    exact ⟨t', e, h'⟩
  item t a k h := by
    obtain ⟨t', e, h'⟩ := (Ref.view (E := E) hW (popBack_ref hW (h.rep hW))).of_ok rfl
    exact ⟨t', by simpa [drainingBack] using e, by simpa using h'⟩
  drop t k log h _ := ⟨t, by simp [drainingBack], h⟩
  nothing := rfl

end Ring

namespace Inline
variable [DecidableEq A] {E : Env} {L : Layout A}

/-- C107. `drain()` on an inline array yields its items, and leaves those it has not yielded in the array, also when it is dropped. -/
theorem C107_drain (hv : L.Valid E) (dp : A → Bool) : ∃ S : Inline A → List A → Prop,
    (∀ {dp' cl s l}, Reachable E L dp' cl s → View E L s l → S s l) ∧ (draining E L : Source (Inline A) A).Models dp S (View E L) (fun _ => []) := by
  refine ⟨Rep E L, fun hr h => hr.rep_of_view hv h, ?_⟩
  constructor
  · intro t k h; exact exactLen_eq (sizeHint_eq hv h)
  · intro t h
    obtain ⟨t', e, h'⟩ := (iterNext_ref hv h).of_ok rfl
    exact ⟨t', e, h'⟩
  · intro t a k h
    obtain ⟨t', e, h'⟩ := (iterNext_ref hv h).of_ok rfl
    exact ⟨t', e, h'⟩
  · intro t k log h _
    exact ⟨t, by simp [draining], h.view hv⟩
  · rfl

/-- C107. `into_iter()` on an inline array yields its items, and destroys those it has not yielded when it is dropped. -/
theorem C107_into_iter (hv : L.Valid E) (dp : A → Bool) : ∃ S : Inline A → List A → Prop,
    (∀ {dp' cl s l}, Reachable E L dp' cl s → View E L s l → S s l) ∧ (consuming E L dp).Models dp S (fun _ _ => True) (fun k => k) := by
  refine ⟨Rep E L, fun hr h => hr.rep_of_view hv h, ?_⟩
  constructor
  · intro t k h; exact exactLen_eq (sizeHint_eq hv h)
  · intro t h
    obtain ⟨t', e, h'⟩ := (iterNext_ref hv h).of_ok rfl
    exact ⟨t', e, h'⟩
  · intro t a k h
    obtain ⟨t', e, h'⟩ := (iterNext_ref hv h).of_ok rfl
    exact ⟨t', e, h'⟩
  · intro t k log h hd
    obtain ⟨t', e⟩ := (DestroysAll.of_ref (drop_ref hv h dp log)).1 hd
    exact ⟨t', e, trivial⟩
  · rfl

/-- C107. `drain().rev()` on an inline array. -/
theorem C107_drain_rev (hv : L.Valid E) (dp : A → Bool) : ∃ S : Inline A → List A → Prop,
    (∀ {dp' cl s l}, Reachable E L dp' cl s → View E L s l → S s l.reverse) ∧
    (drainingBack E L : Source (Inline A) A).Models dp S (fun s k => View E L s k.reverse) (fun _ => []) := by
  refine ⟨fun s k => Rep E L s k.reverse, fun hr h => by simpa using hr.rep_of_view hv h, ?_⟩
  constructor
  · intro t k h; simpa [drainingBack] using exactLen_eq (sizeHint_eq hv h)
  · intro t h
    obtain ⟨t', e, h'⟩ := (iterNextBack_ref hv h).of_ok rfl
    exact ⟨t', e, h'⟩
  · intro t a k h
    obtain ⟨t', e, h'⟩ := (iterNextBack_ref hv h).of_ok rfl
    exact ⟨t', by simpa [drainingBack] using e, by simpa using h'⟩
  · intro t k log h _
    exact ⟨t, by simp [drainingBack], h.view hv⟩
  · rfl

end Inline

namespace Sparse
variable {N : Nat}

/-- C107. `drain()` on a sparse chunk yields its elements by ascending index, and destroys those it has not yielded when it is dropped. -/
theorem C107_drain (dp : A → Bool) : (consuming N dp).Models dp (fun c k => (∃ m, View N c m) ∧ items N c = .ok k c) (fun _ _ => True) (fun k => k) where
  len t k h := by
    obtain ⟨⟨m, h⟩, hk⟩ := h
    exact exactLen_eq (C49_drain_size_hint h hk)
  done t h := by
    obtain ⟨⟨m, h⟩, hk⟩ := h
    obtain ⟨s, e, hs, m', hm'⟩ := drain_rep h hk 1
    simp only [drainMany, M.bind_run] at e
    cases hp : pop N t <;> simp [hp] at e
    exact ⟨s, by simp [consuming, hp, e], ⟨m', hm'.view⟩, by simpa using hs⟩
  item t a k h := by
    obtain ⟨⟨m, h⟩, hk⟩ := h
    obtain ⟨s, e, hs, m', hm'⟩ := drain_rep h hk 1
    simp only [drainMany, M.bind_run] at e
    cases hp : pop N t <;> simp [hp] at e
    exact ⟨s, by simp [consuming, hp, e], ⟨m', hm'.view⟩, by simpa using hs⟩
  drop t k log h hd := by
    obtain ⟨⟨m, h⟩, hk⟩ := h
    have hv : (List.range N).filterMap m = k := by
      rw [items_eq h.rep] at hk; injection hk
    obtain ⟨t', e⟩ := (C88_drop_partial h dp log).1 (by rw [hv]; exact hd)
    exact ⟨t', by simpa [consuming, hv] using e, trivial⟩
  nothing := rfl

end Sparse

/-! ### C107 is not vacuous -/

open Chunk (dbg64 rel64 edge)

/-- A ring buffer whose items wrap around, drained into a chunk of five at index 1, comes out empty; into a chunk of three it is refused and keeps
its items; `extend` takes what fits, destroys one item and leaves the rest. -/
example : Ring.View dbg64 3 Ring.seam [10, 20] ∧
    (∃ s t, Chunk.insertFromBy dbg64 5 (Ring.draining dbg64 3) 1 ((⟨3, 5, (Mem.uninit.put 3 1).put 4 2⟩, Ring.seam), []) = .ok () ((s, t), []) ∧
      Chunk.View dbg64 5 s [1, 10, 20, 2] ∧ Ring.View dbg64 3 t []) ∧
    (∃ s t, Chunk.insertFromBy dbg64 3 (Ring.draining dbg64 3) 1 ((edge, Ring.seam), []) = .panic ((s, t), []) ∧
      Chunk.View dbg64 3 s [10, 20] ∧ Ring.View dbg64 3 t [10, 20]) ∧
    (∃ s t, Chunk.extendBy dbg64 3 (Ring.draining dbg64 3) (fun _ => false) 4 ((edge, Ring.seam), []) = .panic ((s, t), [20]) ∧
      Chunk.View dbg64 3 s [10, 20, 10] ∧ Ring.View dbg64 3 t []) :=
  have hs : Ring.View dbg64 3 Ring.seam [10, 20] := ⟨rfl, by decide, by decide⟩
  have hm := Ring.C107_drain (E := dbg64) (N := 3) (by decide) (fun _ : Nat => false)
  ⟨hs, (Chunk.C107_insert_from (E := dbg64) (N := 5) (c := ⟨3, 5, (Mem.uninit.put 3 1).put 4 2⟩) (l := [1, 2]) (by decide) rfl hm hs 1 [] (.inl rfl)).fits (by decide) (by decide),
    (Chunk.C107_insert_from (E := dbg64) (N := 3) (c := edge) (l := [10, 20]) (by decide) rfl hm hs 1 [] (.inl rfl)).refuses (by decide) (by simp),
    (Chunk.C107_extend (E := dbg64) (N := 3) (c := edge) (l := [10, 20]) (by decide) rfl hm hs [] (by decide)).overflows [10] 20 [] rfl rfl rfl (by simp)⟩

/-- A chunk drained from the back into a ring buffer of four, in the middle; a sparse chunk collected into a ring buffer. -/
example : Chunk.View rel64 3 edge [10, 20] ∧
    (∃ s t, Ring.insertFromBy rel64 4 (Chunk.drainingBack rel64 3) (fun _ => false) 1 5 ((⟨3, 2, (Mem.uninit.put 3 1).put 0 2⟩, edge), []) = .ok () ((s, t), []) ∧
      Ring.View rel64 4 s [1, 20, 10, 2] ∧ Chunk.View rel64 3 t []) ∧
    (∃ s t, Ring.fromIterBy rel64 3 (Sparse.consuming 4 (fun _ => false)) (fun _ => false) 4 (Sparse.sample, []) = .ok s (t, []) ∧ Ring.View rel64 3 s [20, 10]) ∧
    (∃ s t, Chunk.collectFromBy rel64 3 (Chunk.draining rel64 3) (fun _ => false) 1 (edge, []) = .ok s (t, []) ∧ Chunk.View rel64 3 s [10] ∧
      Chunk.View rel64 3 t [20]) :=
  have hr : Ring.View rel64 4 ⟨3, 2, (Mem.uninit.put 3 1).put 0 2⟩ [1, 2] := ⟨rfl, by decide, by decide⟩
  have hm := Chunk.C107_drain_rev (E := rel64) (N := 3) (by decide) (fun _ : Nat => false)
  ⟨rfl, (Ring.C107_insert_from (E := rel64) (N := 4) (l := [1, 2]) (by decide) hr hm (t := edge) (k := [20, 10]) rfl 1 [] (.inr (by decide))
      (by decide)).fits (by decide) (by decide),
    let ⟨s, t, e, h, _⟩ := (Ring.C107_from_iter (E := rel64) (N := 3) (by decide) (by decide) (Sparse.C107_drain (N := 4) (fun _ : Nat => false)) (t := Sparse.sample)
      (k := [20, 10]) ⟨⟨_, Sparse.sample_view⟩, rfl⟩ [] (fuel := 4) (by decide)).fits (by decide)
    ⟨s, t, e, h⟩,
    (Chunk.C107_collect_from (E := rel64) (N := 3) (by decide) (Chunk.C107_drain (E := rel64) (N := 3) (by decide) (fun _ : Nat => false)) (t := edge)
      (k := [10, 20]) rfl 1 []).enough (by decide) (by decide)⟩

/-- An inline array of three, drained into a chunk: the items that do not fit stay in the array. -/
example : ∃ s t, Chunk.extendBy dbg64 3 (Inline.draining dbg64 Inline.words) (fun _ => false) 4 ((⟨1, 2, Mem.uninit.put 1 5⟩, Inline.three), []) = .panic ((s, t), [30]) ∧
    Chunk.View dbg64 3 s [5, 10, 20] ∧ Inline.View dbg64 Inline.words t [] := by
  obtain ⟨S, h1, hm⟩ := Inline.C107_drain Inline.words_valid (fun _ : Nat => false)
  exact (Chunk.C107_extend (E := dbg64) (N := 3) (c := ⟨1, 2, Mem.uninit.put 1 5⟩) (l := [5]) (by decide) rfl hm (h1 Inline.three_spec.1 Inline.three_spec.2) [] (by decide)).overflows
    [10, 20] 30 [] rfl rfl rfl (by simp)

/-- A host type with no room behind the header: the chunk that should have been collected is destroyed with its iterator. -/
example : ∃ t, Inline.fromIterBy dbg64 { Inline.words with hostSize := 8 } (Chunk.consuming dbg64 3 (fun _ => false)) (fun _ => false) 0 4 (edge, []) = .panic (t, [10, 20]) :=
  let ⟨t, e, _⟩ := Inline.C107_from_iter_refused (E := dbg64) (L := { Inline.words with hostSize := 8 }) (j := 0) (Inline.new_panic (by decide) 0)
    (Chunk.C107_into_iter (E := dbg64) (N := 3) (by decide) (fun _ : Nat => false)) (t := edge) (k := [10, 20]) rfl [] (by simp) 4
  ⟨t, e⟩

end Verif
