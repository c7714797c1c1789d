import Verif.Safe
import Verif.Ring.View
/-
`RingBuffer` driven by a client that does not hold back: as `Ring/World.lean`, but slices are indexed anywhere, sliced with any bounds
(also `..=usize::MAX` in a release build), and `io::Write` is used in debug builds.
-/
namespace Verif
namespace Ring
variable {A : Type}

/-- The calls on a slice, with nothing held back. -/
def rawSliceCall (E : Env) (N : Nat) (dp : A → Bool) (lo hi : Bound) (cuts : List Cut) : SliceOp A → M (Ring A × List A) (Res A)
  | .index i => ask (do sliceIndex E N (← sliceVia E lo hi cuts) i) .ref
  | .set i v => giving dp [v] (do sliceSetIndex E N (← sliceVia E lo hi cuts) i v) .val
  | k => sliceCall E N dp lo hi cuts k

/-- The calls on one buffer, with nothing held back but a release-build `insert_from` whose length overflows `usize` (see C31). -/
def rawUn (E : Env) (N : Nat) (dp : A → Bool) (cl : A → Option A) : Un A → M (Ring A × List A) (Res A)
  | .write buf => ask (write E N buf) (fun n => .read n (buf.drop n))
  | .slice lo hi cuts k => rawSliceCall E N dp lo hi cuts k
  | k => (machine E N dp cl).un k

/-- The calls producing another buffer, with nothing held back. -/
def rawFork (E : Env) (N : Nat) (dp : A → Bool) (cl : A → Option A) : Fork → M (Ring A × List A) (Option (Ring A))
  | .toOwned lo hi cuts => do return some (← toOwned E N dp cl lo hi cuts)
  | k => (machine E N dp cl).fork k

/-- The table of calls of `machine` (Ring/World.lean) without its guards, except for `insert_from`. -/
def rawMachine (E : Env) (N : Nat) (dp : A → Bool) (cl : A → Option A) : Machine A (Ring A) (Ctor A) (Un A) Fork Bin :=
  { machine E N dp cl with un := rawUn E N dp cl, fork := rawFork E N dp cl }

/-- Some list is in the buffer. -/
def Good (N : Nat) (c : Ring A) : Prop := ∃ l, Rep N c l

variable {E : Env} {N : Nat} {dp : A → Bool} {cl : A → Option A}

theorem sat_uadd_any {σ : Type} {a b : Nat} {s : σ} {Q : Nat → σ → Prop} {P : σ → Prop} {B : Prop} (hq : ∀ r, Q r s) (hp : P s) :
    Sat (uadd E a b s) Q P B := by
  unfold uadd
  split
  · exact hq _
  · split
    · exact hp
    · exact hq _

theorem sat_subStart_any {c : Ring A} {s : Span} {lo : Bound} {Q : Nat → Ring A → Prop} {P : Ring A → Prop} {B : Prop} (hq : ∀ r, Q r c) (hp : P c) :
    Sat (subStart E s lo c) Q P B := by
  cases lo with
  | unbounded => exact hq _
  | included i => exact sat_uadd_any hq hp
  | excluded i => exact hp

theorem sat_subStop_any {c : Ring A} {s : Span} {hi : Bound} {Q : Nat → Ring A → Prop} {P : Ring A → Prop} {B : Prop} (hq : ∀ r, Q r c) (hp : P c) :
    Sat (subStop E s hi c) Q P B := by
  cases hi with
  | unbounded => exact hq _
  | included i =>
    unfold subStop
    apply Sat.bind
    exact sat_uadd_any (fun _ => sat_uadd_any hq hp) hp
  | excluded i => exact sat_uadd_any hq hp

theorem sat_slice_any {c : Ring A} {lo hi : Bound} {Q : Span → Ring A → Prop} {P : Ring A → Prop} {B : Prop}
    (hq : ∀ s : Span, s.start ≤ s.stop → s.stop ≤ c.length → Q s c) (hp : P c) : Sat (slice E lo hi c) Q P B := by
  unfold slice
  apply Sat.bind
  have h2 : ∀ start, Sat (((do
      let stop ← parseStop E hi
      M.panicIf (stop > (← getLen) ∨ start > stop)
      return ⟨start, stop⟩ : M (Ring A) Span)) c) Q P B := by
    intro start
    have h3 : ∀ stop, Sat (((do
        M.panicIf (stop > (← getLen) ∨ start > stop)
        return ⟨start, stop⟩ : M (Ring A) Span)) c) Q P B := by
      intro stop
      apply Sat.bind
      refine sat_getLen ?_
      apply Sat.bind
      apply Sat.panicIf
      · intro _; exact hp
      · intro h; exact hq _ (by dsimp only; omega) (by dsimp only; omega)
    apply Sat.bind
    cases hi with
    | unbounded => exact h3 _
    | included i => exact sat_uadd_any (fun r => h3 r) hp
    | excluded i => exact h3 _
  cases lo with
  | unbounded => exact h2 _
  | included i => exact h2 _
  | excluded i => exact hp

theorem sat_narrow_any {c : Ring A} {Q : Span → Ring A → Prop} {P : Ring A → Prop} {B : Prop} (hW : c.length < E.W) (cuts : List Cut) (s : Span)
    (h1 : s.start ≤ s.stop) (h2 : s.stop ≤ c.length) (hq : ∀ s : Span, s.start ≤ s.stop → s.stop ≤ c.length → Q s c) (hp : P c) :
    Sat (narrow E cuts s c) Q P B := by
  induction cuts generalizing s with
  | nil => exact hq s h1 h2
  | cons k r ih =>
    cases k with
    | sub lo hi =>
      unfold narrow subSlice
      apply Sat.bind
      apply Sat.bind
      refine sat_subStart_any (fun a => ?_) hp
      apply Sat.bind
      refine sat_subStop_any (fun b => ?_) hp
      apply Sat.bind
      apply Sat.panicIf
      · intro _; exact hp
      · intro h
        exact ih ⟨a, b⟩ (by dsimp only; omega) (by dsimp only; omega)
    | left i =>
      unfold narrow splitAt
      apply Sat.bind
      apply Sat.bind
      refine sat_sliceLen (a := s.start) (b := s.stop) h1 ?_
      apply Sat.bind
      apply Sat.panicIf
      · intro _; exact hp
      · intro h
        apply Sat.bind
        refine Sat.uadd (by omega) ?_
        exact ih _ (by dsimp only; omega) (by dsimp only; omega)
    | right i =>
      unfold narrow splitAt
      apply Sat.bind
      apply Sat.bind
      refine sat_sliceLen (a := s.start) (b := s.stop) h1 ?_
      apply Sat.bind
      apply Sat.panicIf
      · intro _; exact hp
      · intro h
        apply Sat.bind
        refine Sat.uadd (by omega) ?_
        exact ih _ (by dsimp only; omega) (by dsimp only; omega)

theorem sat_sliceVia_any {c : Ring A} {Q : Span → Ring A → Prop} {P : Ring A → Prop} {B : Prop} (hW : c.length < E.W) (lo hi : Bound)
    (cuts : List Cut) (hq : ∀ a b, a ≤ b → b ≤ c.length → Q ⟨a, b⟩ c) (hp : P c) : Sat (sliceVia E lo hi cuts c) Q P B := by
  unfold sliceVia
  apply Sat.bind
  exact sat_slice_any (fun s h1 h2 => sat_narrow_any hW cuts s h1 h2 (fun t => hq t.start t.stop) hp) hp

theorem ask_keeps {α : Type} {x : M (Ring A) α} {f : α → Res A} {c : Ring A} {log : List A}
    (h : Sat (x c) (fun _ s => Good N s) (fun s => Good N s) True) :
    Sat (ask x f (c, log)) (fun _ s => Good N s.1) (fun s => Good N s.1) True := by
  unfold ask
  apply Sat.bind
  apply Sat.onFst
  exact Sat.imp h (fun _ _ h => h) (fun _ h => h) id

theorem giving_keeps {α : Type} {x : M (Ring A) α} {f : α → Res A} {c : Ring A} {v : A} {log : List A}
    (h : Sat (x c) (fun _ s => Good N s) (fun s => Good N s) True) :
    Sat (giving dp [v] x f (c, log)) (fun _ s => Good N s.1) (fun s => Good N s.1) True := by
  unfold giving
  apply Sat.onUnwind
  refine Sat.imp (ask_keeps (f := f) (log := log) h) (fun _ _ h => h) ?_ id
  rintro ⟨s, log⟩ hs
  refine Sat.dropSlice ?_ ?_ ?_
  · intro _; exact hs
  · intro _; trivial
  · intro _; trivial

/-- A step on a slice obtained from the buffer in any way. -/
theorem sliceVia_keeps {α : Type} (hW : 2 * N < E.W) {c : Ring A} {l : List A} (h : Rep N c l) (lo hi : Bound) (cuts : List Cut)
    {x : Span → M (Ring A) α} (hx : ∀ a b, a ≤ b → b ≤ l.length → Sat (x ⟨a, b⟩ c) (fun _ s => Good N s) (fun s => Good N s) True) :
    Sat ((do x (← sliceVia E lo hi cuts)) c) (fun _ s => Good N s) (fun s => Good N s) True := by
  apply Sat.bind
  have := h.le
  have := h.len
  exact sat_sliceVia_any (by omega) lo hi cuts (fun a b h1 h2 => hx a b h1 (by omega)) ⟨l, h⟩

theorem ref_keeps {α : Type} {c : Out (Ring A) α} {o : Out (List A) α} {R : Ring A → List A → Prop} (h : Ref R c o)
    (hR : ∀ c l, R c l → Good N c) : Sat c (fun _ s => Good N s) (fun s => Good N s) True :=
  Sat.imp h (fun _ s ⟨t, _, h⟩ => hR s t h) (fun s ⟨t, _, h⟩ => hR s t h) (fun _ => trivial)

theorem rawSliceCall_keeps (hW : 2 * N < E.W) {c : Ring A} {l : List A} (h : Rep N c l) (log : List A) (lo hi : Bound) (cuts : List Cut)
    (k : SliceOp A) : Sat (rawSliceCall E N dp lo hi cuts k (c, log)) (fun _ s => Good N s.1) (fun s => Good N s.1) True := by
  have hg : ∀ (w : Nat × Nat) (c : Ring A) (m : List A), RepW N w l c m → Good N c := fun w c m h => ⟨_, h⟩
  cases k with
  | len => exact ask_keeps (sliceVia_keeps hW h lo hi cuts fun a b h1 h2 => ref_keeps (sliceLen_ref h h1 h2) (hg _))
  | items => exact ask_keeps (sliceVia_keeps hW h lo hi cuts fun a b h1 h2 => ref_keeps (sliceItems_ref hW h h1 h2) (hg _))
  | get i => exact ask_keeps (sliceVia_keeps hW h lo hi cuts fun a b h1 h2 => ref_keeps (sliceGet_ref hW h h1 h2 i) (hg _))
  | index i =>
    refine ask_keeps (sliceVia_keeps hW h lo hi cuts fun a b h1 h2 => ?_)
    unfold sliceIndex
    apply Sat.bind
    refine sat_uadd_any (fun r => ?_) ⟨l, h⟩
    exact ref_keeps (index_ref hW h r) (fun c l h => ⟨l, h⟩)
  | replace i v => exact giving_keeps (sliceVia_keeps hW h lo hi cuts fun a b h1 h2 => ref_keeps (sliceReplace_ref hW h h1 h2 i v) (hg _))
  | set i v =>
    refine giving_keeps (sliceVia_keeps hW h lo hi cuts fun a b h1 h2 => ?_)
    rw [sliceSetIndex_def]
    apply Sat.bind
    refine sat_uadd_any (fun r => ?_) ⟨l, h⟩
    exact ref_keeps (setIndex_ref hW h r v) (fun c l h => ⟨l, h⟩)
  | mutate f => exact ask_keeps (sliceVia_keeps hW h lo hi cuts fun a b h1 h2 => ref_keeps (sliceMutate_ref hW h h1 h2 f) (hg _))

theorem toOwned_keeps (hN : 0 < N) (hW : 2 * N < E.W) {c : Ring A} {l : List A} (h : Rep N c l) (log : List A) (lo hi : Bound)
    (cuts : List Cut) : Sat (toOwned E N dp cl lo hi cuts (c, log)) (fun d s => Good N s.1 ∧ Good N d) (fun s => Good N s.1) True := by
  have h3 := h.le
  have h4 := h.len
  unfold toOwned
  apply Sat.bind
  apply Sat.onFst
  refine sat_sliceVia_any (by omega) lo hi cuts (fun a b h1 h2 => ?_) ⟨l, h⟩
  have hl := part_length (w := (a, b)) (l := l) (by dsimp only; omega)
  dsimp only at hl ⊢
  generalize hg : Spec.part (a, b) l = g at hl
  unfold sliceToOwned
  apply Sat.bind
  apply Sat.onFst
  refine sat_sliceIter hW h.org h1 (by omega) ?_
  apply Sat.bind
  refine sat_new hN ?_
  apply Sat.bind
  apply Sat.withLocal
  dsimp only
  rw [← hl]
  refine Sat.imp (ownedLoop_sat hW dp cl h.org g [] a (g.length + 1) _ log (Rep.empty hN) (by simp; omega) (by omega) (by omega) ?_) ?_ ?_ ?_
  · intro j hj
    rw [h.cell _ (by omega), ← hg, part_getElem?, if_pos (by omega)]
  · rintro _ ⟨⟨s1, s2⟩, s3⟩ ⟨e1, e2, e3, e4⟩
    dsimp only at e1 e2 e3 e4
    subst e3 e4
    exact ⟨⟨l, h⟩, ⟨_, e2⟩⟩
  · rintro ⟨⟨s1, s2⟩, s3⟩ ⟨e1, e2, e3, e4⟩
    dsimp only at e1 e2 e3 e4
    subst e3 e4
    apply dropLocal_sat hW dp e2
    · intro hd; exact ⟨l, h⟩
    · intro hd; trivial
  · intro h; exact h.elim

theorem rawKeeps (hN : 0 < N) (hW : 2 * N < E.W) : (rawMachine E N dp cl).Keeps (Good N) := by
  have hk : (machine E N dp cl).Keeps (Good N) := (machineRel hN hW).keeps
  refine ⟨hk.ctor, fun k c log h => ?_, fun k c log h => ?_, hk.bin, hk.dtor⟩
  · have this := hk.un k c log h
    cases k
    case write buf =>
      obtain ⟨l, h⟩ := h
      refine ask_keeps (Sat.imp (write_sat hW buf h) ?_ ?_ (fun h => h.elim))
      · rintro n s ⟨_, h1, _⟩; exact ⟨_, h1⟩
      · rintro s ⟨rfl, _, _⟩; exact ⟨_, h⟩
    case slice lo hi cuts k =>
      obtain ⟨l, h⟩ := h
      exact rawSliceCall_keeps hW h log lo hi cuts k
    all_goals exact this
  · have this := hk.fork k c log h
    cases k
    case toOwned lo hi cuts =>
      obtain ⟨l, h⟩ := h
      simp only [rawMachine, rawFork]
      apply Sat.bind
      refine Sat.imp (toOwned_keeps hN hW h log lo hi cuts) ?_ (fun _ h => h) id
      intro d s hs
      exact ⟨hs.1, fun x e => by cases e; exact hs.2⟩
    all_goals exact this

end Ring
end Verif
