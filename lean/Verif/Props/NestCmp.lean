import Verif.Props.Effects
import Verif.Props.Contracts
import Verif.Opaque
import Verif.Props.Nest
/-
C112: comparing, hashing and printing containers of containers.
-/
namespace Verif
namespace Effects
variable {A τ X T : Type} {E : Env}

/-! ### Containers as items -/

/-- `==`, `partial_cmp`, `cmp`, `hash` and `{:?}` of a type, as programs on a state (of the user's, with the hasher and the formatter); `fmt` answers `false` for
`Err`. -/
structure Look (τ X : Type) where
  eq : X → X → M τ Bool
  partialCmp : X → X → M τ (Option Ordering)
  cmp : X → X → M τ Ordering
  hash : X → M τ Unit
  fmt : X → M τ Bool

/-- What the formatter itself does for `debug_list` (standard library): at the beginning, before an entry (given whether it is the first one), after it, and at
the end; `false` is `Err`. -/
structure Frame (τ : Type) where
  write : String → M τ Bool
  opening : M τ Bool
  before : Bool → M τ Bool
  after : M τ Bool
  closing : M τ Bool

/-- `DebugList` printing items with `fmt`. -/
def Frame.printer (fr : Frame τ) (fmt : X → M τ Bool) : Printer τ X where
  write := fr.write
  opening := fr.opening
  entry first a := do
    if (← fr.before first) = true then
      if (← fmt a) = true then fr.after else return false
    else return false
  closing := fr.closing

/-- The containers that own their items. (A borrowed slice of a ring buffer is not used as an item here; slices of the language hash differently, see C21.) -/
def _root_.Verif.Effects.Operand.owns : Operand X → Prop
  | .chunk _ | .ring _ | .inline _ => True
  | .part .. | .slice => False

/-- The methods of `Chunk<X>`, `RingBuffer<X>` or `InlineArray<X, _>`, when those of `X` are `e` (the lines cited in Verif/Effects.lean). -/
def Look.of [DecidableEq X] (E : Env) (s : Operand X) (name : String) (fr : Frame τ) (e : Look τ X) : Look τ s.Store where
  eq c d := fun u => (Effects.eq (side E s) (side E s) e.eq ((c, d), u)).mapState Prod.snd
  partialCmp c d := fun u => (Effects.partialCmp (side E s) (side E s) e.partialCmp ((c, d), u)).mapState Prod.snd
  cmp c d := fun u => (Effects.cmp (side E s) (side E s) e.cmp ((c, d), u)).mapState Prod.snd
  hash c := fun u => (Effects.hash (side E s) e.hash (c, u)).mapState Prod.snd
  fmt c := fun u => (Effects.fmt name (side E s) (fr.printer e.fmt) (c, u)).mapState Prod.snd

/-! ### What they show -/

/-- The same of lists. -/
def Look.list (name : String) (fr : Frame τ) (e : Look τ T) : Look τ (List T) where
  eq := eqCalls e.eq
  partialCmp := partialCmpCalls e.partialCmp
  cmp := cmpCalls e.cmp
  hash := forCalls e.hash
  fmt := fmtCalls name (fr.printer e.fmt)

/-- `Compared E fr lk e s V leaves`: `e` are the methods of a type of containers of containers of ... of plain items with methods `lk`, to any depth; `V x t` says
that `x` shows `t`, a list of lists of ... of items; `s` are the methods of these lists; `leaves t` are the plain items in `t`, in order. -/
inductive Compared (E : Env) (fr : Frame τ) (lk : Look τ A) : {X T : Type} → Look τ X → Look τ T → (X → T → Prop) → (T → List A) → Prop where
  | item : Compared E fr lk lk lk Eq (fun a => [a])
  | node {X T : Type} [DecidableEq X] {e : Look τ X} {s : Look τ T} {V : X → T → Prop} {leaves : T → List A} (o : Operand X) (ho : o.owns) (name : String)
      (h : Compared E fr lk e s V leaves) :
      Compared E fr lk (Look.of E o name fr e) (s.list name fr) (fun c ts => ∃ xs, Shows E o c xs ∧ Pairwise2 V xs ts) (fun ts => ts.flatMap leaves)

/-! ### Lists of related items -/

theorem _root_.Verif.Pairwise2.length {R : X → T → Prop} {xs : List X} {ts : List T} (h : Pairwise2 R xs ts) : xs.length = ts.length := by
  induction h with
  | nil => rfl
  | cons _ _ ih => simp [ih]

section
variable {V : X → T → Prop} {e : Look τ X} {s : Look τ T}

theorem eqPairs_congr {f : X → X → M τ Bool} {g : T → T → M τ Bool} (h : ∀ {x t y r}, V x t → V y r → f x y = g t r) {xs ys : List X} {ts rs : List T}
    (h1 : Pairwise2 V xs ts) (h2 : Pairwise2 V ys rs) : eqPairs f xs ys = eqPairs g ts rs := by
  induction h1 generalizing ys rs with
  | nil => cases h2 <;> rfl
  | cons hx _ ih =>
    cases h2 with
    | nil => rfl
    | cons hy h2 => simp only [eqPairs, h hx hy, ih h2]

theorem partialCmpCalls_congr {f : X → X → M τ (Option Ordering)} {g : T → T → M τ (Option Ordering)} (h : ∀ {x t y r}, V x t → V y r → f x y = g t r)
    {xs ys : List X} {ts rs : List T} (h1 : Pairwise2 V xs ts) (h2 : Pairwise2 V ys rs) : partialCmpCalls f xs ys = partialCmpCalls g ts rs := by
  induction h1 generalizing ys rs with
  | nil => cases h2 <;> rfl
  | cons hx _ ih =>
    cases h2 with
    | nil => rfl
    | cons hy h2 => simp only [partialCmpCalls, h hx hy, ih h2]

theorem cmpCalls_congr {f : X → X → M τ Ordering} {g : T → T → M τ Ordering} (h : ∀ {x t y r}, V x t → V y r → f x y = g t r)
    {xs ys : List X} {ts rs : List T} (h1 : Pairwise2 V xs ts) (h2 : Pairwise2 V ys rs) : cmpCalls f xs ys = cmpCalls g ts rs := by
  induction h1 generalizing ys rs with
  | nil => cases h2 <;> rfl
  | cons hx _ ih =>
    cases h2 with
    | nil => rfl
    | cons hy h2 => simp only [cmpCalls, h hx hy, ih h2]

theorem forCalls_congr {f : X → M τ Unit} {g : T → M τ Unit} (h : ∀ {x t}, V x t → f x = g t) {xs : List X} {ts : List T} (h1 : Pairwise2 V xs ts) :
    forCalls f xs = forCalls g ts := by
  induction h1 with
  | nil => rfl
  | cons hx _ ih => simp only [forCalls, h hx, ih]

theorem entryCalls_congr {f : X → M τ Bool} {g : T → M τ Bool} (fr : Frame τ) (h : ∀ {x t}, V x t → f x = g t) {xs : List X} {ts : List T}
    (h1 : Pairwise2 V xs ts) (first : Bool) : entryCalls (fr.printer f) first xs = entryCalls (fr.printer g) first ts := by
  induction h1 generalizing first with
  | nil => rfl
  | cons hx _ ih => simp only [entryCalls, Frame.printer, h hx] at ih ⊢; simp only [ih]
end

theorem mapState_snd {σ α : Type} (o : Out τ α) (c : σ) : (o.mapState (fun u => (c, u))).mapState Prod.snd = o := by cases o <;> rfl

/-- C112. Containers of containers, to any depth and of any mixture of chunks, ring buffers and inline arrays, compare, hash and print as the
lists of lists they show: the plain items' own methods are called in the same way, and the answer, the panic if there is one and the state are the same. -/
theorem C112_nested {fr : Frame τ} {lk : Look τ A} {e : Look τ X} {s : Look τ T} {V : X → T → Prop} {leaves : T → List A} (h : Compared E fr lk e s V leaves) {x y : X}
    {t r : T} (hx : V x t) (hy : V y r) :
    e.eq x y = s.eq t r ∧ e.partialCmp x y = s.partialCmp t r ∧ e.cmp x y = s.cmp t r ∧ e.hash x = s.hash t ∧ e.fmt x = s.fmt t := by
  induction h with
  | item => cases hx; cases hy; exact ⟨rfl, rfl, rfl, rfl, rfl⟩
  | @node X' T' _ e' s' V' _ o ho name h ih =>
    obtain ⟨xs, hx, px⟩ := hx
    obtain ⟨ys, hy, py⟩ := hy
    have p1 := eqPairs_congr (V := V') (f := e'.eq) (g := s'.eq) (fun h1 h2 => (ih h1 h2).1) px py
    have p2 := partialCmpCalls_congr (V := V') (f := e'.partialCmp) (g := s'.partialCmp) (fun h1 h2 => (ih h1 h2).2.1) px py
    have p3 := cmpCalls_congr (V := V') (f := e'.cmp) (g := s'.cmp) (fun h1 h2 => (ih h1 h2).2.2.1) px py
    have p4 := forCalls_congr (V := V') (f := e'.hash) (g := s'.hash) (fun h1 => (ih h1 h1).2.2.2.1) px
    have p5 := entryCalls_congr (V := V') (f := e'.fmt) (g := s'.fmt) fr (fun h1 => (ih h1 h1).2.2.2.2) px true
    refine ⟨?_, ?_, ?_, ?_, ?_⟩ <;> funext u
    · have q := C95_eq hx hy e'.eq u
      simp only [Look.of, Look.list, q, mapState_snd, eqCalls, px.length, py.length, p1]
    · have q := C95_partial_cmp hx hy e'.partialCmp u
      simp only [Look.of, Look.list, q, mapState_snd, p2]
    · have q := C95_cmp hx hy e'.cmp u
      simp only [Look.of, Look.list, q, mapState_snd, p3]
    · have q := C95_hash hx e'.hash u
      simp only [Look.of, Look.list, q, mapState_snd, p4]
    · have q := C95_debug hx name (fr.printer e'.fmt) u
      simp only [Look.of, Look.list, q, mapState_snd, fmtCalls, p5]
      rfl

/-- C112. Hashing containers of containers hashes every plain item in them exactly once, in order, and nothing else: the result does not depend on how they are
nested. -/
theorem C112_hash {fr : Frame τ} {lk : Look τ A} {e : Look τ X} {s : Look τ T} {V : X → T → Prop} {leaves : T → List A} (h : Compared E fr lk e s V leaves) {x : X}
    {t : T} (hx : V x t) : e.hash x = forCalls lk.hash (leaves t) := by
  have hap : ∀ l k : List A, forCalls lk.hash (l ++ k) = (do forCalls lk.hash l; forCalls lk.hash k) := by
    intro l k
    induction l with
    | nil => rfl
    | cons a l ih => funext u; simp only [List.cons_append, forCalls, M.bind_run, ih]; cases lk.hash a u <;> simp
  rw [(C112_nested h hx hx).2.2.2.1]
  clear hx x
  induction h with
  | item => funext u; simp only [forCalls, M.bind_run]; cases lk.hash t u <;> simp
  | node o ho name h ih =>
    simp only [Look.list]
    induction t with
    | nil => rfl
    | cons t ts iht => simp only [forCalls, List.flatMap_cons, hap, ih, iht]

/-- C112. If `==` of the plain items answers whether they are the same, then so does `==` of containers of containers of them: it answers whether they show the same
lists of lists, that is, have the same shape and the same items. -/
theorem C112_eq {fr : Frame τ} {lk : Look τ A} {e : Look τ X} {s : Look τ T} {V : X → T → Prop} {leaves : T → List A} (h : Compared E fr lk e s V leaves)
    (hl : ∀ a b u, ∃ q, lk.eq a b u = .ok q u ∧ (q = true ↔ a = b)) {x y : X} {t r : T} (hx : V x t) (hy : V y r) (u : τ) :
    ∃ q, e.eq x y u = .ok q u ∧ (q = true ↔ t = r) := by
  rw [(C112_nested h hx hy).1]
  clear hx hy x y
  induction h with
  | item => exact hl t r u
  | @node X' T' _ e' s' V' _ o ho name h ih =>
    have hp : ∀ ts rs : List T', ts.length = rs.length → ∃ q, eqPairs s'.eq ts rs u = .ok q u ∧ (q = true ↔ ts = rs) := by
      intro ts
      induction ts with
      | nil => intro rs hr; cases rs with
        | nil => exact ⟨true, rfl, by simp⟩
        | cons => simp at hr
      | cons t ts iht => intro rs hr; cases rs with
        | nil => simp at hr
        | cons r rs =>
          obtain ⟨q, h1, h2⟩ := ih (t := t) (r := r)
          obtain ⟨q', h3, h4⟩ := iht rs (by simpa using hr)
          simp only [eqPairs, M.bind_run, h1, Out.andThen_ok]
          cases q with
          | true => exact ⟨q', by simpa using h3, by simp [h4, h2.1 rfl]⟩
          | false => exact ⟨false, rfl, by simp; intro e; simpa using h2.2 e⟩
    simp only [Look.list, eqCalls]
    by_cases hlen : t.length = r.length
    · rw [if_pos hlen]; exact hp t r hlen
    · rw [if_neg hlen]; exact ⟨false, rfl, by simp; intro e; exact hlen (by rw [e])⟩

/-- The methods of plain items that are pure functions and keep the contracts of `Eq`, `Ord` and `Hash`; the state is what was fed to the hasher. -/
def Look.pure {H : Type} (eq : A → A → Bool) (cm : A → A → Ordering) (hs : A → List (Feed H)) (fmt : A → M (List (Feed H)) Bool) : Look (List (Feed H)) A where
  eq a b := Pure.pure (eq a b)
  partialCmp a b := Pure.pure (some (cm a b))
  cmp a b := Pure.pure (cm a b)
  hash a := fun u => .ok () (u ++ hs a)
  fmt := fmt

/-- C112. If the plain items keep the contracts of `Eq`, `Ord` and `Hash`, then so do containers of containers of them, to any depth. -/
theorem C112_contracts {H : Type} {fr : Frame (List (Feed H))} {eq : A → A → Bool} {cm : A → A → Ordering} {hs : A → List (Feed H)} (L : Lawful eq cm hs)
    {fmt : A → M (List (Feed H)) Bool} {e : Look (List (Feed H)) X} {s : Look (List (Feed H)) T} {V : X → T → Prop} {leaves : T → List A}
    (h : Compared E fr (Look.pure eq cm hs fmt) e s V leaves) :
    ∃ (eq' : T → T → Bool) (cm' : T → T → Ordering) (hs' : T → List (Feed H)), Lawful eq' cm' hs' ∧
      ∀ {x y t r}, V x t → V y r → ∀ u, e.eq x y u = .ok (eq' t r) u ∧ e.cmp x y u = .ok (cm' t r) u ∧ e.partialCmp x y u = .ok (some (cm' t r)) u ∧
        e.hash x u = .ok () (u ++ hs' t) := by
  suffices ∃ (eq' : T → T → Bool) (cm' : T → T → Ordering) (hs' : T → List (Feed H)), Lawful eq' cm' hs' ∧
      ∀ t r, s.eq t r = (fun u => .ok (eq' t r) u) ∧ s.cmp t r = (fun u => .ok (cm' t r) u) ∧ s.partialCmp t r = (fun u => .ok (some (cm' t r)) u) ∧
        s.hash t = (fun u => .ok () (u ++ hs' t)) by
    obtain ⟨eq', cm', hs', h1, h2⟩ := this
    refine ⟨eq', cm', hs', h1, fun {x y t r} hx hy u => ?_⟩
    obtain ⟨e1, e2, e3, e4, -⟩ := C112_nested h hx hy
    obtain ⟨f1, f2, f3, f4⟩ := h2 t r
    rw [e1, e2, e3, e4, f1, f2, f3, f4]
    exact ⟨rfl, rfl, rfl, rfl⟩
  induction h with
  | item => exact ⟨eq, cm, hs, L, fun t r => ⟨rfl, rfl, rfl, rfl⟩⟩
  | @node X' T' _ e' s' _ _ o ho name h ih =>
    obtain ⟨eq', cm', hs', h1, h2⟩ := ih
    have g1 : s'.eq = fun a b => Pure.pure (eq' a b) := by funext a b; exact (h2 a b).1
    have g2 : s'.cmp = fun a b => Pure.pure (cm' a b) := by funext a b; exact (h2 a b).2.1
    have g3 : s'.partialCmp = fun a b => Pure.pure (some (cm' a b)) := by funext a b; exact (h2 a b).2.2.1
    have g4 : s'.hash = fun a u => .ok () (u ++ hs' a) := by funext a; exact (h2 a a).2.2.2
    refine ⟨_, _, _, h1.lift (fun l : List T' => l), fun t r => ⟨?_, ?_, ?_, ?_⟩⟩ <;> funext u
    · simp only [Look.list, g1, eqCalls_pure]
    · simp only [Look.list, g2, cmpCalls_pure]
    · simp only [Look.list, g3, partialCmpCalls_pure]
      congr 1
      generalize t = l
      generalize r = k
      induction l generalizing k with
      | nil => cases k <;> rfl
      | cons a l ih =>
        cases k with
        | nil => rfl
        | cons b k => simp only [seqPartialCmp, seqCmp]; cases cm' a b <;> simp [ih]
    · simp only [Look.list, g4, forCalls_feed]

/-! ### With sparse chunks among them: `==` and `{:?}` only -/

/-- `==` and `{:?}` of a type. -/
structure Seen (τ X : Type) where
  eq : X → X → M τ Bool
  fmt : X → M τ Bool
/-- The two of a type that has them all. -/
def Look.seen (e : Look τ X) : Seen τ X := ⟨e.eq, e.fmt⟩

/-- What the formatter itself does for `debug_map` (standard library): the beginning, before an entry (given whether it is the first one), the index and the colon,
after the value, and the end. -/
structure MapFrame (τ : Type) where
  write : String → M τ Bool
  opening : M τ Bool
  before : Bool → M τ Bool
  key : Nat → M τ Bool
  after : M τ Bool
  closing : M τ Bool
/-- `DebugMap` printing values with `fmt`. -/
def MapFrame.printer (fr : MapFrame τ) (fmt : X → M τ Bool) : Printer τ (Nat × X) where
  write := fr.write
  opening := fr.opening
  entry first p := do
    if (← fr.before first) = true then
      if (← fr.key p.1) = true then
        if (← fmt p.2) = true then fr.after else return false
      else return false
    else return false
  closing := fr.closing

/-- `==` and `{:?}` of `Chunk<X>`, `RingBuffer<X>` or `InlineArray<X, _>`. -/
def Seen.of [DecidableEq X] (E : Env) (s : Operand X) (name : String) (fr : Frame τ) (e : Seen τ X) : Seen τ s.Store where
  eq c d := fun u => (Effects.eq (side E s) (side E s) e.eq ((c, d), u)).mapState Prod.snd
  fmt c := fun u => (Effects.fmt name (side E s) (fr.printer e.fmt) (c, u)).mapState Prod.snd
/-- `==` and `{:?}` of `SparseChunk<X, N>` (src/sparse_chunk/mod.rs:370-387, 433-442). -/
def Seen.sparse (N : Nat) (fr : MapFrame τ) (e : Seen τ X) : Seen τ (Sparse X) where
  eq c d := fun u => (eqSparse N e.eq ((c, d), u)).mapState Prod.snd
  fmt c := fun u => (Effects.fmt "SparseChunk" (entriesSide X N) (fr.printer e.fmt) (c, u)).mapState Prod.snd

/-- The same of lists. -/
def Seen.list (name : String) (fr : Frame τ) (e : Seen τ T) : Seen τ (List T) := ⟨eqCalls e.eq, fmtCalls name (fr.printer e.fmt)⟩
/-- The same of maps from indices below `N`: equal if the same indices are occupied and the values at each are equal. -/
def Seen.map (N : Nat) (fr : MapFrame τ) (e : Seen τ T) : Seen τ (SMap T) where
  eq m m' := if m.keys N = m'.keys N then keyCalls e.eq m m' (m.keys N) else Pure.pure false
  fmt m := fmtCalls "SparseChunk" (fr.printer e.fmt) (m.pairs N)

/-- Both nothing, or related. -/
def OptRel (V : X → T → Prop) : Option X → Option T → Prop
  | none, none => True
  | some x, some t => V x t
  | _, _ => False

/-- `Printed`: as `Compared`, with sparse chunks too. What is shown is a list of ... or a map to ... of plain items. -/
inductive Printed (E : Env) (fr : Frame τ) (fr' : MapFrame τ) (lk : Seen τ A) : {X T : Type} → Seen τ X → Seen τ T → (X → T → Prop) → Prop where
  | item : Printed E fr fr' lk lk lk Eq
  | node {X T : Type} [DecidableEq X] {e : Seen τ X} {s : Seen τ T} {V : X → T → Prop} (o : Operand X) (ho : o.owns) (name : String)
      (h : Printed E fr fr' lk e s V) :
      Printed E fr fr' lk (Seen.of E o name fr e) (s.list name fr) (fun c ts => ∃ xs, Shows E o c xs ∧ Pairwise2 V xs ts)
  | sparse {X T : Type} [DecidableEq X] {e : Seen τ X} {s : Seen τ T} {V : X → T → Prop} (N : Nat) (h : Printed E fr fr' lk e s V) :
      Printed E fr fr' lk (Seen.sparse N fr' e) (s.map N fr') (fun c m => ∃ mx, Sparse.View N c mx ∧ ∀ i, OptRel V (mx i) (m i))

theorem OptRel.isSome {V : X → T → Prop} {a : Option X} {b : Option T} (h : OptRel V a b) : a.isSome = b.isSome := by
  cases a <;> cases b <;> first | rfl | exact absurd h (by simp [OptRel])

theorem OptRel.keys {V : X → T → Prop} {m : SMap X} {m' : SMap T} (h : ∀ i, OptRel V (m i) (m' i)) (N : Nat) : m.keys N = m'.keys N := by
  unfold SMap.keys
  congr 1
  funext i
  exact (h i).isSome

theorem OptRel.pairs {V : X → T → Prop} {m : SMap X} {m' : SMap T} (h : ∀ i, OptRel V (m i) (m' i)) (N : Nat) :
    Pairwise2 (fun p q : Nat × _ => p.1 = q.1 ∧ V p.2 q.2) (m.pairs N) (m'.pairs N) := by
  unfold SMap.pairs
  induction List.range N with
  | nil => exact .nil
  | cons i r ih =>
    have hi := h i
    revert hi
    simp only [List.filterMap_cons]
    cases m i <;> cases m' i <;> intro hi
    · exact ih
    · exact hi.elim
    · exact hi.elim
    · exact .cons ⟨rfl, hi⟩ ih

theorem keyCalls_congr {V : X → T → Prop} {f : X → X → M τ Bool} {g : T → T → M τ Bool} (h : ∀ {x t y r}, V x t → V y r → f x y = g t r)
    {m n : SMap X} {m' n' : SMap T} (h1 : ∀ i, OptRel V (m i) (m' i)) (h2 : ∀ i, OptRel V (n i) (n' i)) (l : List Nat) : keyCalls f m n l = keyCalls g m' n' l := by
  induction l with
  | nil => rfl
  | cons i r ih =>
    have : optEqM f (m i) (n i) = optEqM g (m' i) (n' i) := by
      have a1 := h1 i
      have a2 := h2 i
      revert a1 a2
      cases m i <;> cases m' i <;> cases n i <;> cases n' i <;> intro a1 a2 <;> simp only [OptRel] at a1 a2 <;> first | rfl | exact h a1 a2
    simp only [keyCalls, this, ih]

theorem mapEntries_congr {V : X → T → Prop} {f : X → M τ Bool} {g : T → M τ Bool} (fr : MapFrame τ) (h : ∀ {x t}, V x t → f x = g t) {l : List (Nat × X)}
    {k : List (Nat × T)} (h1 : Pairwise2 (fun p q : Nat × _ => p.1 = q.1 ∧ V p.2 q.2) l k) (first : Bool) :
    entryCalls (fr.printer f) first l = entryCalls (fr.printer g) first k := by
  induction h1 generalizing first with
  | nil => rfl
  | cons hx _ ih => simp only [entryCalls, MapFrame.printer, hx.1, h hx.2] at ih ⊢; simp only [ih]

/-- C112. `==` and `{:?}` of containers of containers, sparse chunks among them, to any depth: as of the lists and maps they show; the plain items' own methods are
called in the same way, and the answer, the panic if there is one and the state are the same. -/
theorem C112_sparse {fr : Frame τ} {fr' : MapFrame τ} {lk : Seen τ A} {e : Seen τ X} {s : Seen τ T} {V : X → T → Prop} (h : Printed E fr fr' lk e s V) {x y : X}
    {t r : T} (hx : V x t) (hy : V y r) : e.eq x y = s.eq t r ∧ e.fmt x = s.fmt t := by
  induction h with
  | item => cases hx; cases hy; exact ⟨rfl, rfl⟩
  | @node X' T' _ e' s' V' o ho name h ih =>
    obtain ⟨xs, hx, px⟩ := hx
    obtain ⟨ys, hy, py⟩ := hy
    have p1 := eqPairs_congr (V := V') (f := e'.eq) (g := s'.eq) (fun h1 h2 => (ih h1 h2).1) px py
    have p5 := entryCalls_congr (V := V') (f := e'.fmt) (g := s'.fmt) fr (fun h1 => (ih h1 h1).2) px true
    refine ⟨?_, ?_⟩ <;> funext u
    · have q := C95_eq hx hy e'.eq u
      simp only [Seen.of, Seen.list, q, mapState_snd, eqCalls, px.length, py.length, p1]
    · have q := C95_debug hx name (fr.printer e'.fmt) u
      simp only [Seen.of, Seen.list, q, mapState_snd, fmtCalls, p5]
      rfl
  | @sparse X' T' _ e' s' V' N h ih =>
    obtain ⟨mx, hx, px⟩ := hx
    obtain ⟨my, hy, py⟩ := hy
    have p1 := keyCalls_congr (V := V') (f := e'.eq) (g := s'.eq) (fun h1 h2 => (ih h1 h2).1) px py (t.keys N)
    have p5 := mapEntries_congr (V := V') (f := e'.fmt) (g := s'.fmt) fr' (fun h1 => (ih h1 h1).2) (OptRel.pairs px N) true
    refine ⟨?_, ?_⟩ <;> funext u
    · have q := C95_sparse_eq hx hy e'.eq u
      simp only [Seen.sparse, Seen.map, q, mapState_snd, OptRel.keys px, OptRel.keys py, p1]
      split <;> rfl
    · have q := C95_sparse_debug hx "SparseChunk" (fr'.printer e'.fmt) u
      simp only [Seen.sparse, Seen.map, q, mapState_snd, fmtCalls, p5]
      rfl

/-- C112. If `==` of the plain items answers whether they are the same, then so does `==` of containers of containers of them, sparse chunks among them: it answers
whether they show the same. -/
theorem C112_sparse_eq {fr : Frame τ} {fr' : MapFrame τ} {lk : Seen τ A} {e : Seen τ X} {s : Seen τ T} {V : X → T → Prop} (h : Printed E fr fr' lk e s V)
    (hl : ∀ a b u, ∃ q, lk.eq a b u = .ok q u ∧ (q = true ↔ a = b)) {x y : X} {t r : T} (hx : V x t) (hy : V y r) (u : τ) :
    ∃ q, e.eq x y u = .ok q u ∧ (q = true ↔ t = r) := by
  induction h with
  | item => cases hx; cases hy; exact hl _ _ u
  | @node X' T' _ e' s' V' o ho name h ih =>
    rw [(C112_sparse (.node o ho name h) hx hy).1]
    obtain ⟨xs, -, hx⟩ := hx
    obtain ⟨ys, -, hy⟩ := hy
    have hp : xs.length = ys.length → ∃ q, eqPairs s'.eq t r u = .ok q u ∧ (q = true ↔ t = r) := by
      intro hlen
      induction hx generalizing ys r with
      | nil => cases hy with
        | nil => exact ⟨true, rfl, by simp⟩
        | cons => simp at hlen
      | @cons x t xs ts hx hxs iht => cases hy with
        | nil => simp at hlen
        | @cons y r ys rs hy hys =>
          obtain ⟨q, h1, h2⟩ := ih hx hy
          rw [(C112_sparse h hx hy).1] at h1
          obtain ⟨q', h3, h4⟩ := iht _ hys (by simpa using hlen)
          simp only [eqPairs, M.bind_run, h1, Out.andThen_ok]
          cases q with
          | true => exact ⟨q', by simpa using h3, by simp [h4, h2.1 rfl]⟩
          | false => exact ⟨false, rfl, by simp; intro e; simpa using h2.2 e⟩
    simp only [Seen.list, eqCalls]
    by_cases hlen : t.length = r.length
    · rw [if_pos hlen]; exact hp (by rw [hx.length, hy.length, hlen])
    · rw [if_neg hlen]; exact ⟨false, rfl, by simp; intro e; exact hlen (by rw [e])⟩
  | @sparse X' T' _ e' s' V' N h ih =>
    rw [(C112_sparse (.sparse N h) hx hy).1]
    obtain ⟨mx, vx, hx⟩ := hx
    obtain ⟨my, vy, hy⟩ := hy
    have hp : ∀ l : List Nat, ∃ q, keyCalls s'.eq t r l u = .ok q u ∧ (q = true ↔ ∀ i ∈ l, t i = r i) := by
      intro l
      induction l with
      | nil => exact ⟨true, rfl, by simp⟩
      | cons i l ihl =>
        obtain ⟨q', h3, h4⟩ := ihl
        obtain ⟨q, h1, h2⟩ : ∃ q, optEqM s'.eq (t i) (r i) u = .ok q u ∧ (q = true ↔ t i = r i) := by
          have a1 := hx i
          have a2 := hy i
          revert a1 a2
          cases mx i <;> cases t i <;> cases my i <;> cases r i <;> intro a1 a2 <;> simp only [OptRel] at a1 a2
          · exact ⟨true, rfl, by simp⟩
          · exact ⟨false, rfl, by simp⟩
          · exact ⟨false, rfl, by simp⟩
          · obtain ⟨q, h1, h2⟩ := ih a1 a2
            rw [(C112_sparse h a1 a2).1] at h1
            exact ⟨q, h1, by simpa using h2⟩
        simp only [keyCalls, M.bind_run, h1, Out.andThen_ok]
        cases q with
        | true => exact ⟨q', by simpa using h3, by simp [h4, h2.1 rfl]⟩
        | false => exact ⟨false, rfl, by simp; intro e; simpa using h2.2 e⟩
    have far : ∀ {c : Sparse X'} {n : SMap X'} {n' : SMap T'}, Sparse.View N c n → (∀ i, OptRel V' (n i) (n' i)) → ∀ i, N ≤ i → n' i = none := by
      intro c n n' hv ho i hi
      have := hv i
      have ho := ho i
      have hn : n i = none := hv.rep.out i hi
      rw [hn] at ho
      revert ho
      cases n' i <;> simp [OptRel]
    simp only [Seen.map]
    by_cases hk : t.keys N = r.keys N
    · rw [if_pos hk]
      obtain ⟨q, h1, h2⟩ := hp (t.keys N)
      refine ⟨q, h1, h2.trans ⟨fun h => ?_, fun h => by simp [h]⟩⟩
      funext i
      by_cases hi : i < N
      · by_cases hs : (t i).isSome
        · exact h i (by simp [SMap.keys, hi, hs])
        · have : i ∉ r.keys N := by rw [← hk]; simp [SMap.keys, hi]; simpa using hs
          have h1 : t i = none := by simpa using hs
          have h2 : r i = none := by simpa [SMap.keys, hi] using this
          rw [h1, h2]
      · rw [far vx hx i (by omega), far vy hy i (by omega)]
    · rw [if_neg hk]; exact ⟨false, rfl, by simp; intro e; exact hk (by rw [e])⟩

/-! ### C112 is not vacuous -/

/-- The methods of numbers, pure and lawful; printing answers `Err`. -/
def numbers : Look (List (Feed Nat)) Nat := Look.pure (fun a b => decide (a = b)) compare (fun a => [Feed.word a]) (fun _ => Pure.pure false)
/-- A formatter that always answers `Err`. -/
def broken : Frame (List (Feed Nat)) := ⟨fun _ => Pure.pure false, Pure.pure false, fun _ => Pure.pure false, Pure.pure false, Pure.pure false⟩
noncomputable instance : DecidableEq (Ring Nat) := fun _ _ => Classical.propDecidable _
/-- The methods of a chunk of ring buffers of numbers. -/
noncomputable def boxesLook : Look (List (Feed Nat)) (Chunk (Ring Nat)) :=
  Look.of Chunk.dbg64 (.chunk 3) "Chunk" broken (Look.of Chunk.dbg64 (.ring 3) "RingBuffer" broken numbers)

/-- C112 is not vacuous: `boxes`, a chunk of two ring buffers, shows `[[10, 20], [30, 40]]`. -/
theorem boxes_compared : ∃ (s : Look (List (Feed Nat)) (List (List Nat))) (V : Chunk (Ring Nat) → List (List Nat) → Prop) (leaves : List (List Nat) → List Nat),
    Compared Chunk.dbg64 broken numbers boxesLook s V leaves ∧ V boxes [[10, 20], [30, 40]] ∧ leaves [[10, 20], [30, 40]] = [10, 20, 30, 40] :=
  ⟨_, _, _, .node (.chunk 3) trivial "Chunk" (.node (.ring 3) trivial "RingBuffer" .item),
    ⟨_, rfl, .cons ⟨_, ⟨by decide, rfl, by decide, by decide⟩, .cons rfl (.cons rfl .nil)⟩
      (.cons ⟨_, ⟨by decide, rfl, by decide, by decide⟩, .cons rfl (.cons rfl .nil)⟩ .nil)⟩, rfl⟩
/-- It is equal to itself, and its hash is that of its four numbers. -/
example : boxesLook.eq boxes boxes [] = .ok true [] ∧ boxesLook.hash boxes [] = .ok () [.word 10, .word 20, .word 30, .word 40] := by
  obtain ⟨s, V, leaves, h, hv, hl⟩ := boxes_compared
  refine ⟨?_, ?_⟩
  · obtain ⟨q, h1, h2⟩ := C112_eq h (fun a b u => ⟨decide (a = b), rfl, by simp⟩) hv hv []
    rw [h1, h2.2 rfl]
  · rw [C112_hash h hv, hl]; rfl
/-- Numbers keep the contracts, so ring buffers of numbers in a chunk do. -/
example : ∃ (eq' : List (List Nat) → List (List Nat) → Bool) (cm' : _ → _ → Ordering) (hs' : _ → List (Feed Nat)), Lawful eq' cm' hs' ∧
    boxesLook.eq boxes boxes [] = .ok (eq' [[10, 20], [30, 40]] [[10, 20], [30, 40]]) [] := by
  obtain ⟨s, V, leaves, h, hv, -⟩ := boxes_compared
  obtain ⟨eq', cm', hs', h1, h2⟩ := C112_contracts Chunk.lawfulNat h
  exact ⟨eq', cm', hs', h1, (h2 hv hv []).1⟩

noncomputable instance : DecidableEq (Chunk Nat) := fun _ _ => Classical.propDecidable _
/-- A map formatter that always answers `Err`. -/
def brokenMap : MapFrame (List (Feed Nat)) :=
  ⟨fun _ => Pure.pure false, Pure.pure false, fun _ => Pure.pure false, fun _ => Pure.pure false, Pure.pure false, Pure.pure false⟩
/-- A sparse chunk with `edge`, a chunk that shows `[10, 20]`, at 3. -/
def shelf : Sparse (Chunk Nat) := ⟨fun j => decide (j = 3), fun j => if j = 3 then some Chunk.edge else none⟩
/-- C112 is not vacuous for sparse chunks: `shelf` shows the map from 3 to `[10, 20]`. -/
example : ∃ (e : Seen (List (Feed Nat)) (Sparse (Chunk Nat))) (s : Seen (List (Feed Nat)) (SMap (List Nat))) (V : Sparse (Chunk Nat) → SMap (List Nat) → Prop),
    Printed Chunk.dbg64 broken brokenMap numbers.seen e s V ∧ V shelf (SMap.empty.upd 3 (some [10, 20])) ∧ e.eq shelf shelf [] = .ok true [] := by
  have h := Printed.sparse 4 (.node (.chunk 3) trivial "Chunk" (.item (E := Chunk.dbg64) (fr := broken) (fr' := brokenMap) (lk := numbers.seen)))
  have hv : (fun c m => ∃ mx, Sparse.View 4 c mx ∧ ∀ i, OptRel (fun c ts => ∃ xs, Shows Chunk.dbg64 (.chunk 3) c xs ∧ Pairwise2 Eq xs ts) (mx i) (m i))
      shelf (SMap.empty.upd 3 (some [10, 20])) := by
    refine ⟨SMap.empty.upd 3 (some Chunk.edge), Sparse.view_iff.2 ⟨?_, ?_, ?_⟩, fun i => ?_⟩
    · intro i hi; by_cases h3 : i = 3 <;> simp [shelf, SMap.empty, SMap.upd, h3]
    · intro i a hi; by_cases h3 : i = 3 <;> simp [shelf, SMap.empty, SMap.upd, h3]
    · intro i hi; simp [SMap.empty, SMap.upd, show i ≠ 3 by omega]
    · by_cases h3 : i = 3 <;> simp only [SMap.empty, SMap.upd, h3, if_pos, if_neg, OptRel, not_false_eq_true]
      exact ⟨_, rfl, .cons rfl (.cons rfl .nil)⟩
  refine ⟨_, _, _, h, hv, ?_⟩
  obtain ⟨q, h1, h2⟩ := C112_sparse_eq h (fun a b u => ⟨decide (a = b), rfl, by simp⟩) hv hv []
  rw [h1, h2.2 rfl]

end Effects
end Verif
