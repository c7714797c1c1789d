import Verif.Vc
import Verif.Cmp
/-! # Comparing, hashing and formatting when the elements' own methods have effects

`==`, `cmp`, `partial_cmp`, `hash` and `{:?}` of a container call the same method of its elements. That is code of the user: it can count, log, read a
clock, or panic. Here such a method is a computation on a state `τ` of the user's, of any type. The first part are the standard library's loops over
two iterators; the second says what the client expects, on lists. -/
namespace Verif
namespace Effects
variable {σ σ' τ A B : Type}

/-- How a container, borrowed shared, can be run through: its length, `iter()`, and `next()`. `bound` only serves to make the loops below functions of
Lean: it says how many calls of `next` there can be; running out of it counts as not terminating. -/
structure Side (σ A : Type) where
  ι : Type
  len : M σ Nat
  iter : M σ ι
  next : ι → M σ (Option (A × ι))
  bound : ι → Nat

/-- `slice::Iter::next` (standard library). -/
def listNext : List A → M σ (Option (A × List A))
  | [] => pure none
  | a :: l => pure (some (a, l))
/-- A slice `&[A]`, got from the container by `slice`. -/
def Side.ofSlice (slice : M σ (List A)) : Side σ A where
  ι := List A
  len := do return (← slice).length
  iter := slice
  next := listNext
  bound l := l.length

/-- `Iterator::eq` (standard library): `loop { match (a.next(), b.next()) { … } }`, the second `next` being called also when the first is at its end.
The state is `((self, other), the user's)`. -/
def iterEq (s : Side σ A) (t : Side σ' B) (f : A → B → M τ Bool) : Nat → s.ι → t.ι → M ((σ × σ') × τ) Bool
  | 0, _, _ => M.diverge
  | fuel + 1, i, k => do
    match (← M.onFst (M.onFst (s.next i))) with
    | none =>
      let y ← M.onFst (M.onSnd (t.next k))
      return y.isNone
    | some (a, i') =>
      match (← M.onFst (M.onSnd (t.next k))) with
      | none => return false
      | some (b, k') => if (← M.onSnd (f a b)) = true then iterEq s t f fuel i' k' else return false

/-- `Iterator::partial_cmp` (standard library). -/
def iterPartialCmp (s : Side σ A) (t : Side σ' B) (f : A → B → M τ (Option Ordering)) : Nat → s.ι → t.ι → M ((σ × σ') × τ) (Option Ordering)
  | 0, _, _ => M.diverge
  | fuel + 1, i, k => do
    match (← M.onFst (M.onFst (s.next i))) with
    | none =>
      let y ← M.onFst (M.onSnd (t.next k))
      return some (if y.isNone then .eq else .lt)
    | some (a, i') =>
      match (← M.onFst (M.onSnd (t.next k))) with
      | none => return some .gt
      | some (b, k') =>
        match (← M.onSnd (f a b)) with
        | some .eq => iterPartialCmp s t f fuel i' k'
        | o => return o

/-- `Iterator::cmp` (standard library). -/
def iterCmp (s : Side σ A) (t : Side σ' B) (f : A → B → M τ Ordering) : Nat → s.ι → t.ι → M ((σ × σ') × τ) Ordering
  | 0, _, _ => M.diverge
  | fuel + 1, i, k => do
    match (← M.onFst (M.onFst (s.next i))) with
    | none =>
      let y ← M.onFst (M.onSnd (t.next k))
      return (if y.isNone then .eq else .lt)
    | some (a, i') =>
      match (← M.onFst (M.onSnd (t.next k))) with
      | none => return .gt
      | some (b, k') =>
        match (← M.onSnd (f a b)) with
        | .eq => iterCmp s t f fuel i' k'
        | o => return o

/-- `for item in self { body(item) }`. -/
def iterFor (s : Side σ A) (body : A → M τ Unit) : Nat → s.ι → M (σ × τ) Unit
  | 0, _ => M.diverge
  | fuel + 1, i => do
    match (← M.onFst (s.next i)) with
    | none => pure ()
    | some (a, i') =>
      M.onSnd (body a)
      iterFor s body fuel i'

/-- `self.len() == other.len() && self.iter().eq(other.iter())` (src/ring_buffer/mod.rs:819, 832, 841, 850, src/ring_buffer/slice.rs:175, 183, 191, 203,
461, 469, 477, 489), and `<[A]>::eq` (standard library), to which src/sized_chunk/mod.rs:757 and src/inline_array/mod.rs:484 forward. -/
def eq (s : Side σ A) (t : Side σ' B) (f : A → B → M τ Bool) : M ((σ × σ') × τ) Bool := do
  let n ← M.onFst (M.onFst s.len)
  let m ← M.onFst (M.onSnd t.len)
  if n = m then
    let i ← M.onFst (M.onFst s.iter)
    let k ← M.onFst (M.onSnd t.iter)
    iterEq s t f (s.bound i + 1) i k
  else return false
/-- `self.iter().partial_cmp(other.iter())` (src/sized_chunk/mod.rs:768, src/ring_buffer/mod.rs:860, src/ring_buffer/slice.rs:213, 499,
src/inline_array/mod.rs:495). -/
def partialCmp (s : Side σ A) (t : Side σ' B) (f : A → B → M τ (Option Ordering)) : M ((σ × σ') × τ) (Option Ordering) := do
  let i ← M.onFst (M.onFst s.iter)
  let k ← M.onFst (M.onSnd t.iter)
  iterPartialCmp s t f (s.bound i + 1) i k
/-- `self.iter().cmp(other.iter())` (src/sized_chunk/mod.rs:777, src/ring_buffer/mod.rs:868, src/ring_buffer/slice.rs:221, 507, src/inline_array/mod.rs:504). -/
def cmp (s : Side σ A) (t : Side σ' B) (f : A → B → M τ Ordering) : M ((σ × σ') × τ) Ordering := do
  let i ← M.onFst (M.onFst s.iter)
  let k ← M.onFst (M.onSnd t.iter)
  iterCmp s t f (s.bound i + 1) i k
/-- `for item in self { item.hash(hasher) }` (src/sized_chunk/mod.rs:745-747, src/ring_buffer/mod.rs:900-902, src/ring_buffer/slice.rs:235-237, 521-523,
src/inline_array/mod.rs:526-528); the hasher is part of `τ`. -/
def hash (s : Side σ A) (h : A → M τ Unit) : M (σ × τ) Unit := do
  let i ← M.onFst s.iter
  iterFor s h (s.bound i + 1) i

/-! ### Formatting -/

/-- What a `Formatter` and the element's `fmt` do, on the state `τ` (which contains the formatter); `false` is `Err`. `open`, `entry` and `close` are what
`debug_list` (or `debug_map`) does at its beginning, for an entry (given whether it is the first one) and at its end: it differs for `{:?}` and `{:#?}`. -/
structure Printer (τ A : Type) where
  write : String → M τ Bool
  opening : M τ Bool
  entry : Bool → A → M τ Bool
  closing : M τ Bool

/-- `DebugList::entries` (standard library): `for entry in entries { self.entry(&entry) }`, where `entry` does nothing once there was an error. -/
def entries (s : Side σ A) (p : Printer τ A) : Nat → s.ι → (first ok : Bool) → M (σ × τ) Bool
  | 0, _, _, _ => M.diverge
  | fuel + 1, i, first, ok => do
    match (← M.onFst (s.next i)) with
    | none => return ok
    | some (a, i') =>
      let ok' ← if ok = true then M.onSnd (p.entry first a) else pure false
      entries s p fuel i' false ok'

/-- `f.write_str(NAME)?; f.debug_list().entries(self.iter()).finish()` (src/sized_chunk/mod.rs:732-733, src/ring_buffer/mod.rs:892-893,
src/ring_buffer/slice.rs:227-228, 513-514, src/inline_array/mod.rs:513-514) and `debug_map().entries(self.entries())` (src/sparse_chunk/mod.rs:439-440). -/
def fmt (name : String) (s : Side σ A) (p : Printer τ A) : M (σ × τ) Bool := do
  if (← M.onSnd (p.write name)) = true then
    let ok ← M.onSnd p.opening
    let i ← M.onFst s.iter
    let ok' ← entries s p (s.bound i + 1) i true ok
    if ok' = true then M.onSnd p.closing else return false
  else return false

/-! ### What the client expects -/

/-- Compare pairs from the front until one is not equal. -/
def eqPairs (f : A → B → M τ Bool) : List A → List B → M τ Bool
  | a :: l, b :: k => do if (← f a b) = true then eqPairs f l k else return false
  | _, _ => pure true
/-- Equality of lists: lengths first (no call if they differ), then pairs. -/
def eqCalls (f : A → B → M τ Bool) (l : List A) (k : List B) : M τ Bool := if l.length = k.length then eqPairs f l k else pure false
/-- Lexicographic comparison, up to the first pair that decides. -/
def partialCmpCalls (f : A → B → M τ (Option Ordering)) : List A → List B → M τ (Option Ordering)
  | [], [] => pure (some .eq)
  | [], _ :: _ => pure (some .lt)
  | _ :: _, [] => pure (some .gt)
  | a :: l, b :: k => do
    match (← f a b) with
    | some .eq => partialCmpCalls f l k
    | o => return o
/-- Lexicographic comparison, up to the first pair that decides. -/
def cmpCalls (f : A → B → M τ Ordering) : List A → List B → M τ Ordering
  | [], [] => pure .eq
  | [], _ :: _ => pure .lt
  | _ :: _, [] => pure .gt
  | a :: l, b :: k => do
    match (← f a b) with
    | .eq => cmpCalls f l k
    | o => return o
/-- Call `h` on every item, in order. -/
def forCalls (h : A → M τ Unit) : List A → M τ Unit
  | [] => pure ()
  | a :: l => do h a; forCalls h l
/-- Print the entries, in order, up to the first error. -/
def entryCalls (p : Printer τ A) : Bool → List A → M τ Bool
  | _, [] => pure true
  | first, a :: l => do if (← p.entry first a) = true then entryCalls p false l else return false
/-- Print the name, the opening, the entries and the closing, up to the first error. -/
def fmtCalls (name : String) (p : Printer τ A) (l : List A) : M τ Bool := do
  if (← p.write name) = true then
    if (← p.opening) = true then
      if (← entryCalls p true l) = true then p.closing else return false
    else return false
  else return false

/-! ### The loops do that -/

/-- From the iterator `i`, on the container `c`, `next` yields the items of `l`; it changes nothing. -/
def Yields (s : Side σ A) (c : σ) : s.ι → List A → Prop
  | i, [] => s.next i c = .ok none c
  | i, a :: l => ∃ i', s.next i c = .ok (some (a, i')) c ∧ Yields s c i' l
/-- The container `c` shows the list `l`: length and items. -/
def Gives (s : Side σ A) (c : σ) (l : List A) : Prop :=
  s.len c = .ok l.length c ∧ ∃ i, s.iter c = .ok i c ∧ l.length ≤ s.bound i ∧ Yields s c i l

theorem ofSlice_gives {slice : M σ (List A)} {c : σ} {l : List A} (h : slice c = .ok l c) : Gives (Side.ofSlice slice) c l := by
  refine ⟨by simp [Side.ofSlice, h], l, h, Nat.le_refl _, ?_⟩
  clear h
  induction l with
  | nil => rfl
  | cons a l ih => exact ⟨l, rfl, ih⟩

variable {s : Side σ A} {t : Side σ' B} {c : σ} {d : σ'}

theorem out_id {α : Type} (o : Out τ α) : o.mapState (fun u => u) = o := by cases o <;> rfl

theorem iterEq_eq (f : A → B → M τ Bool) {l : List A} {k : List B} {i : s.ι} {j : t.ι} (n : Nat) (hn : l.length ≤ n)
    (h : Yields s c i l) (h' : Yields t d j k) (hl : l.length = k.length) (u : τ) :
    iterEq s t f (n + 1) i j ((c, d), u) = (eqPairs f l k u).mapState (fun u => ((c, d), u)) := by
  induction l generalizing k i j n u with
  | nil =>
    cases k with
    | nil =>
      have h1 : s.next i c = _ := h
      have h2 : t.next j d = _ := h'
      simp [iterEq, h1, h2, eqPairs]
    | cons => simp at hl
  | cons a l ih =>
    cases k with
    | nil => simp at hl
    | cons b k =>
      obtain ⟨i', h1, h2⟩ := h
      obtain ⟨j', h3, h4⟩ := h'
      simp only [iterEq, M.bind_run, M.onFst_run, M.onSnd_run, h1, h3, Out.mapState_ok, Out.andThen_ok, eqPairs]
      obtain ⟨n, rfl⟩ : ∃ m, n = m + 1 := ⟨n - 1, by simp at hn; omega⟩
      cases f a b u <;> simp
      split
      · exact ih n (by simpa using hn) h2 h4 (by simpa using hl) _
      · rfl

theorem iterPartialCmp_eq (f : A → B → M τ (Option Ordering)) {l : List A} {k : List B} {i : s.ι} {j : t.ι} (n : Nat) (hn : l.length ≤ n)
    (h : Yields s c i l) (h' : Yields t d j k) (u : τ) :
    iterPartialCmp s t f (n + 1) i j ((c, d), u) = (partialCmpCalls f l k u).mapState (fun u => ((c, d), u)) := by
  induction l generalizing k i j n u with
  | nil =>
    have h1 : s.next i c = _ := h
    cases k with
    | nil =>
      have h2 : t.next j d = _ := h'
      simp [iterPartialCmp, h1, h2, partialCmpCalls]
    | cons =>
      obtain ⟨j', h2, _⟩ := h'
      simp [iterPartialCmp, h1, h2, partialCmpCalls]
  | cons a l ih =>
    obtain ⟨i', h1, h2⟩ := h
    cases k with
    | nil =>
      have h3 : t.next j d = _ := h'
      simp [iterPartialCmp, h1, h3, partialCmpCalls]
    | cons b k =>
      obtain ⟨j', h3, h4⟩ := h'
      simp only [iterPartialCmp, M.bind_run, M.onFst_run, M.onSnd_run, h1, h3, Out.mapState_ok, Out.andThen_ok, partialCmpCalls]
      obtain ⟨n, rfl⟩ : ∃ m, n = m + 1 := ⟨n - 1, by simp at hn; omega⟩
      cases f a b u <;> simp
      split
      · exact ih n (by simpa using hn) h2 h4 _
      · rfl

theorem iterCmp_eq (f : A → B → M τ Ordering) {l : List A} {k : List B} {i : s.ι} {j : t.ι} (n : Nat) (hn : l.length ≤ n)
    (h : Yields s c i l) (h' : Yields t d j k) (u : τ) :
    iterCmp s t f (n + 1) i j ((c, d), u) = (cmpCalls f l k u).mapState (fun u => ((c, d), u)) := by
  induction l generalizing k i j n u with
  | nil =>
    have h1 : s.next i c = _ := h
    cases k with
    | nil =>
      have h2 : t.next j d = _ := h'
      simp [iterCmp, h1, h2, cmpCalls]
    | cons =>
      obtain ⟨j', h2, _⟩ := h'
      simp [iterCmp, h1, h2, cmpCalls]
  | cons a l ih =>
    obtain ⟨i', h1, h2⟩ := h
    cases k with
    | nil =>
      have h3 : t.next j d = _ := h'
      simp [iterCmp, h1, h3, cmpCalls]
    | cons b k =>
      obtain ⟨j', h3, h4⟩ := h'
      simp only [iterCmp, M.bind_run, M.onFst_run, M.onSnd_run, h1, h3, Out.mapState_ok, Out.andThen_ok, cmpCalls]
      obtain ⟨n, rfl⟩ : ∃ m, n = m + 1 := ⟨n - 1, by simp at hn; omega⟩
      cases f a b u <;> simp
      split
      · exact ih n (by simpa using hn) h2 h4 _
      · rfl

theorem iterFor_eq (f : A → M τ Unit) {l : List A} {i : s.ι} (n : Nat) (hn : l.length ≤ n) (h : Yields s c i l) (u : τ) :
    iterFor s f (n + 1) i (c, u) = (forCalls f l u).mapState (fun u => (c, u)) := by
  induction l generalizing i n u with
  | nil =>
    have h1 : s.next i c = _ := h
    simp [iterFor, h1, forCalls]
  | cons a l ih =>
    obtain ⟨i', h1, h2⟩ := h
    simp only [iterFor, M.bind_run, M.onFst_run, M.onSnd_run, h1, Out.mapState_ok, Out.andThen_ok, forCalls]
    obtain ⟨n, rfl⟩ : ∃ m, n = m + 1 := ⟨n - 1, by simp at hn; omega⟩
    cases f a u <;> simp
    exact ih n (by simpa using hn) h2 _

theorem entries_failed (p : Printer τ A) {l : List A} {i : s.ι} (n : Nat) (hn : l.length ≤ n) (h : Yields s c i l) (first : Bool) (u : τ) :
    entries s p (n + 1) i first false (c, u) = .ok false (c, u) := by
  induction l generalizing i n first with
  | nil =>
    have h1 : s.next i c = _ := h
    simp [entries, h1]
  | cons a l ih =>
    obtain ⟨i', h1, h2⟩ := h
    simp only [entries, M.bind_run, M.onFst_run, h1, Out.mapState_ok, Out.andThen_ok, Bool.false_eq_true, if_false, M.pure_run]
    obtain ⟨n, rfl⟩ : ∃ m, n = m + 1 := ⟨n - 1, by simp at hn; omega⟩
    exact ih n (by simpa using hn) h2 false

theorem entries_eq (p : Printer τ A) {l : List A} {i : s.ι} (n : Nat) (hn : l.length ≤ n) (h : Yields s c i l) (first : Bool) (u : τ) :
    entries s p (n + 1) i first true (c, u) = (entryCalls p first l u).mapState (fun u => (c, u)) := by
  induction l generalizing i n first u with
  | nil =>
    have h1 : s.next i c = _ := h
    simp [entries, h1, entryCalls]
  | cons a l ih =>
    obtain ⟨i', h1, h2⟩ := h
    simp only [entries, M.bind_run, M.onFst_run, M.onSnd_run, h1, Out.mapState_ok, Out.andThen_ok, if_true, entryCalls]
    obtain ⟨n, rfl⟩ : ∃ m, n = m + 1 := ⟨n - 1, by simp at hn; omega⟩
    cases p.entry first a u <;> simp
    rename_i ok u'
    cases ok with
    | true => simpa using ih n (by simpa using hn) h2 false u'
    | false => simpa using entries_failed p n (by simpa using hn) h2 false u'

theorem eq_eq (f : A → B → M τ Bool) {l : List A} {k : List B} (h : Gives s c l) (h' : Gives t d k) (u : τ) :
    eq s t f ((c, d), u) = (eqCalls f l k u).mapState (fun u => ((c, d), u)) := by
  obtain ⟨h1, i, h2, h3, h4⟩ := h
  obtain ⟨h1', j, h2', -, h4'⟩ := h'
  simp only [eq, M.bind_run, M.onFst_run, M.onSnd_run, h1, h1', Out.mapState_ok, Out.andThen_ok, M.ite_run, eqCalls]
  by_cases hl : l.length = k.length
  · simp only [if_pos hl, M.bind_run, M.onFst_run, M.onSnd_run, h2, h2', Out.mapState_ok, Out.andThen_ok]
    exact iterEq_eq f _ h3 h4 h4' hl u
  · simp only [if_neg hl, M.pure_run, Out.mapState_ok]
theorem partialCmp_eq (f : A → B → M τ (Option Ordering)) {l : List A} {k : List B} (h : Gives s c l) (h' : Gives t d k) (u : τ) :
    partialCmp s t f ((c, d), u) = (partialCmpCalls f l k u).mapState (fun u => ((c, d), u)) := by
  obtain ⟨-, i, h2, h3, h4⟩ := h
  obtain ⟨-, j, h2', -, h4'⟩ := h'
  simp only [partialCmp, M.bind_run, M.onFst_run, M.onSnd_run, h2, h2', Out.mapState_ok, Out.andThen_ok]
  exact iterPartialCmp_eq f _ h3 h4 h4' u
theorem cmp_eq (f : A → B → M τ Ordering) {l : List A} {k : List B} (h : Gives s c l) (h' : Gives t d k) (u : τ) :
    cmp s t f ((c, d), u) = (cmpCalls f l k u).mapState (fun u => ((c, d), u)) := by
  obtain ⟨-, i, h2, h3, h4⟩ := h
  obtain ⟨-, j, h2', -, h4'⟩ := h'
  simp only [cmp, M.bind_run, M.onFst_run, M.onSnd_run, h2, h2', Out.mapState_ok, Out.andThen_ok]
  exact iterCmp_eq f _ h3 h4 h4' u
theorem hash_eq (f : A → M τ Unit) {l : List A} (h : Gives s c l) (u : τ) : hash s f (c, u) = (forCalls f l u).mapState (fun u => (c, u)) := by
  obtain ⟨-, i, h2, h3, h4⟩ := h
  simp only [hash, M.bind_run, M.onFst_run, h2, Out.mapState_ok, Out.andThen_ok]
  exact iterFor_eq f _ h3 h4 u
theorem fmt_eq (name : String) (p : Printer τ A) {l : List A} {i : s.ι} (h2 : s.iter c = .ok i c) (h3 : l.length ≤ s.bound i) (h4 : Yields s c i l) (u : τ) :
    fmt name s p (c, u) = (fmtCalls name p l u).mapState (fun u => (c, u)) := by
  simp only [fmt, fmtCalls, M.bind_run, M.onSnd_run]
  cases p.write name u with
  | ok ok u =>
    cases ok with
    | false => rfl
    | true =>
      simp only [Out.mapState_ok, Out.andThen_ok, if_true, M.bind_run, M.onSnd_run]
      cases p.opening u with
      | ok ok u =>
        simp only [Out.mapState_ok, Out.andThen_ok, M.onFst_run, h2]
        cases ok with
        | false => rw [entries_failed p _ h3 h4]; rfl
        | true =>
          rw [entries_eq p _ h3 h4]
          simp only [if_true, M.bind_run]
          cases entryCalls p true l u with
          | ok ok u => cases ok <;> simp
          | _ => rfl
      | _ => rfl
  | _ => rfl

/-! ### What is called: consequences for methods that keep a record -/

/-- A method that records its calls and then answers as `g` says; `none` is a panic. -/
def recorded {R : Type} (g : A → B → Option R) (a : A) (b : B) : M (List (A × B)) R := fun tr =>
  match g a b with
  | some r => .ok r (tr ++ [(a, b)])
  | none => .panic (tr ++ [(a, b)])

/-- The calls made, `tr`, are those on the first so many pairs; all but the last answered `go on`, and the last one answered `last`. -/
def StopsAt {R : Type} (g : A → B → Option R) (goOn : R) (l : List A) (k : List B) (tr : List (A × B)) (last : Option R) : Prop :=
  ∃ pre a b, tr = pre ++ [(a, b)] ∧ tr <+: l.zip k ∧ (∀ p ∈ pre, g p.1 p.2 = some goOn) ∧ g a b = last

theorem StopsAt.cons {R : Type} {g : A → B → Option R} {goOn : R} {l : List A} {k : List B} {tr : List (A × B)} {last : Option R} {a : A} {b : B}
    (h : StopsAt g goOn l k tr last) (ha : g a b = some goOn) : StopsAt g goOn (a :: l) (b :: k) ((a, b) :: tr) last := by
  obtain ⟨pre, x, y, rfl, h1, h2, h3⟩ := h
  refine ⟨(a, b) :: pre, x, y, rfl, by simpa using h1, ?_, h3⟩
  intro p hp
  rcases List.mem_cons.1 hp with rfl | hp
  · exact ha
  · exact h2 p hp
theorem StopsAt.head {R : Type} {g : A → B → Option R} {goOn : R} {l : List A} {k : List B} {last : Option R} {a : A} {b : B}
    (ha : g a b = last) : StopsAt g goOn (a :: l) (b :: k) [(a, b)] last :=
  ⟨[], a, b, rfl, by simp, by simp, ha⟩

theorem eqPairs_recorded (g : A → B → Option Bool) {l : List A} {k : List B} (hl : l.length = k.length) (tr₀ : List (A × B)) :
    Sat (eqPairs (recorded g) l k tr₀)
      (fun r tr => ∃ calls, tr = tr₀ ++ calls ∧ if r = true then calls = l.zip k ∧ ∀ p ∈ calls, g p.1 p.2 = some true else StopsAt g true l k calls (some false))
      (fun tr => ∃ calls, tr = tr₀ ++ calls ∧ StopsAt g true l k calls none) False := by
  induction l generalizing k tr₀ with
  | nil =>
    cases k with
    | nil => exact ⟨[], by simp, by simp⟩
    | cons => simp at hl
  | cons a l ih =>
    cases k with
    | nil => simp at hl
    | cons b k =>
      simp only [eqPairs, M.bind_run, recorded]
      cases hg : g a b with
      | none => exact ⟨_, rfl, StopsAt.head hg⟩
      | some r =>
        cases r with
        | false => exact ⟨_, rfl, by simpa using StopsAt.head hg⟩
        | true =>
          have := ih (k := k) (by simpa using hl) (tr₀ ++ [(a, b)])
          simp only [Out.andThen_ok, if_true]
          refine this.imp ?_ ?_ id
          · rintro r tr ⟨calls, rfl, h⟩
            refine ⟨(a, b) :: calls, by simp, ?_⟩
            split
            · rename_i hr
              rw [if_pos hr] at h
              refine ⟨by simp [h.1], ?_⟩
              intro p hp
              rcases List.mem_cons.1 hp with rfl | hp
              · exact hg
              · exact h.2 p hp
            · rename_i hr
              rw [if_neg hr] at h
              exact h.cons hg
          · rintro tr ⟨calls, rfl, h⟩
            exact ⟨(a, b) :: calls, by simp, h.cons hg⟩

theorem cmpCalls_recorded (g : A → B → Option Ordering) (l : List A) (k : List B) (tr₀ : List (A × B)) :
    Sat (cmpCalls (recorded g) l k tr₀)
      (fun r tr => ∃ calls, tr = tr₀ ++ calls ∧ ((calls = l.zip k ∧ (∀ p ∈ calls, g p.1 p.2 = some .eq) ∧ r = compare l.length k.length) ∨
        (r ≠ .eq ∧ StopsAt g .eq l k calls (some r))))
      (fun tr => ∃ calls, tr = tr₀ ++ calls ∧ StopsAt g .eq l k calls none) False := by
  induction l generalizing k tr₀ with
  | nil =>
    cases k with
    | nil => exact ⟨[], by simp, .inl ⟨rfl, by simp, rfl⟩⟩
    | cons b k => exact ⟨[], by simp, .inl ⟨rfl, by simp, by simp [Nat.compare_eq_ite_lt]⟩⟩
  | cons a l ih =>
    cases k with
    | nil => exact ⟨[], by simp, .inl ⟨rfl, by simp, by simp [Nat.compare_eq_ite_lt]⟩⟩
    | cons b k =>
      simp only [cmpCalls, M.bind_run, recorded]
      cases hg : g a b with
      | none => exact ⟨_, rfl, StopsAt.head hg⟩
      | some r =>
        simp only [Out.andThen_ok]
        split
        · refine (ih k (tr₀ ++ [(a, b)])).imp ?_ ?_ id
          · rintro r tr ⟨calls, rfl, h⟩
            refine ⟨(a, b) :: calls, by simp, ?_⟩
            rcases h with ⟨h1, h2, h3⟩ | ⟨h1, h2⟩
            · refine .inl ⟨by simp [h1], ?_, ?_⟩
              · intro p hp
                rcases List.mem_cons.1 hp with rfl | hp
                · exact hg
                · exact h2 p hp
              · rw [h3]; simp [Nat.compare_eq_ite_lt]
            · exact .inr ⟨h1, h2.cons hg⟩
          · rintro tr ⟨calls, rfl, h⟩
            exact ⟨(a, b) :: calls, by simp, h.cons hg⟩
        · rename_i hr
          exact ⟨_, rfl, .inr ⟨by first | exact hr | (intro e; exact hr e), StopsAt.head hg⟩⟩

theorem partialCmpCalls_recorded (g : A → B → Option (Option Ordering)) (l : List A) (k : List B) (tr₀ : List (A × B)) :
    Sat (partialCmpCalls (recorded g) l k tr₀)
      (fun r tr => ∃ calls, tr = tr₀ ++ calls ∧ ((calls = l.zip k ∧ (∀ p ∈ calls, g p.1 p.2 = some (some .eq)) ∧ r = some (compare l.length k.length)) ∨
        (r ≠ (some .eq) ∧ StopsAt g (some .eq) l k calls (some r))))
      (fun tr => ∃ calls, tr = tr₀ ++ calls ∧ StopsAt g (some .eq) l k calls none) False := by
  induction l generalizing k tr₀ with
  | nil =>
    cases k with
    | nil => exact ⟨[], by simp, .inl ⟨rfl, by simp, rfl⟩⟩
    | cons b k => exact ⟨[], by simp, .inl ⟨rfl, by simp, by simp [Nat.compare_eq_ite_lt]⟩⟩
  | cons a l ih =>
    cases k with
    | nil => exact ⟨[], by simp, .inl ⟨rfl, by simp, by simp [Nat.compare_eq_ite_lt]⟩⟩
    | cons b k =>
      simp only [partialCmpCalls, M.bind_run, recorded]
      cases hg : g a b with
      | none => exact ⟨_, rfl, StopsAt.head hg⟩
      | some r =>
        simp only [Out.andThen_ok]
        split
        · refine (ih k (tr₀ ++ [(a, b)])).imp ?_ ?_ id
          · rintro r tr ⟨calls, rfl, h⟩
            refine ⟨(a, b) :: calls, by simp, ?_⟩
            rcases h with ⟨h1, h2, h3⟩ | ⟨h1, h2⟩
            · refine .inl ⟨by simp [h1], ?_, ?_⟩
              · intro p hp
                rcases List.mem_cons.1 hp with rfl | hp
                · exact hg
                · exact h2 p hp
              · rw [h3]; simp [Nat.compare_eq_ite_lt]
            · exact .inr ⟨h1, h2.cons hg⟩
          · rintro tr ⟨calls, rfl, h⟩
            exact ⟨(a, b) :: calls, by simp, h.cons hg⟩
        · rename_i hr
          exact ⟨_, rfl, .inr ⟨by first | exact hr | (intro e; exact hr e), StopsAt.head hg⟩⟩

/-! ### Without effects these are the pure functions of Cmp.lean -/

theorem eqCalls_pure (g : A → B → Bool) (l : List A) (k : List B) (u : τ) :
    eqCalls (fun a b => pure (g a b)) l k u = .ok (seqEq g l k) u := by
  have hp : ∀ (l : List A) (k : List B), l.length = k.length → eqPairs (τ := τ) (fun a b => pure (g a b)) l k u = .ok (seqEq g l k) u := by
    intro l
    induction l with
    | nil => intro k hk; cases k with
      | nil => rfl
      | cons => simp at hk
    | cons a l ih => intro k hk; cases k with
      | nil => simp at hk
      | cons b k =>
        simp only [eqPairs, M.bind_run, M.pure_run, Out.andThen_ok, seqEq]
        cases g a b <;> simp [ih k (by simpa using hk)]
  unfold eqCalls
  by_cases hl : l.length = k.length
  · rw [if_pos hl]; exact hp l k hl
  · rw [if_neg hl]
    have : seqEq g l k = false := by
      cases h : seqEq g l k with
      | false => rfl
      | true => exact absurd ((seqEq_iff g l k).1 h).1 hl
    rw [this]; rfl
theorem cmpCalls_pure (g : A → A → Ordering) (l k : List A) (u : τ) : cmpCalls (fun a b => pure (g a b)) l k u = .ok (seqCmp g l k) u := by
  induction l generalizing k with
  | nil => cases k <;> rfl
  | cons a l ih =>
    cases k with
    | nil => rfl
    | cons b k =>
      simp only [cmpCalls, M.bind_run, M.pure_run, Out.andThen_ok, seqCmp]
      cases g a b <;> simp [ih k]
theorem partialCmpCalls_pure (g : A → A → Option Ordering) (l k : List A) (u : τ) :
    partialCmpCalls (fun a b => pure (g a b)) l k u = .ok (seqPartialCmp g l k) u := by
  induction l generalizing k with
  | nil => cases k <;> rfl
  | cons a l ih =>
    cases k with
    | nil => rfl
    | cons b k =>
      simp only [partialCmpCalls, M.bind_run, M.pure_run, Out.andThen_ok, seqPartialCmp]
      cases g a b with
      | none => rfl
      | some o => cases o <;> simp [ih k]
theorem forCalls_feed {H : Type} (h : A → List (Feed H)) (l : List A) (u : List (Feed H)) :
    forCalls (fun a u => .ok () (u ++ h a)) l u = .ok () (u ++ hashItems h l) := by
  induction l generalizing u with
  | nil => simp [forCalls, hashItems]
  | cons a l ih =>
    show forCalls (fun a u => .ok () (u ++ h a)) l (u ++ h a) = _
    rw [ih]
    simp [hashItems, List.append_assoc]

end Effects
end Verif
