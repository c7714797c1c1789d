import Verif.SpecMap
/-
Replacing every item by another: the vocabulary of C110.  `f` says by what each item is replaced.
-/
namespace Verif

/-- The outcome with result and state replaced. -/
def Out.image {σ τ α β : Type} (g : α → β) (h : σ → τ) : Out σ α → Out τ β
  | .ok a s => .ok (g a) (h s)
  | .panic s => .panic (h s)
  | .abort => .abort
  | .ub => .ub
  | .diverge => .diverge

/-- `y` does to the image of a state the image of what `x` does to it. -/
def Natural {σ τ α β : Type} (g : α → β) (h : σ → τ) (x : M σ α) (y : M τ β) : Prop := ∀ s, y (h s) = (x s).image g h

/-- The same call of `next()` with the item replaced. -/
def Ev.map {A B : Type} (f : A → B) : Ev A → Ev B
  | .item a => .item (f a)
  | .panic => .panic

/-- What a call returns, with the items in it replaced. -/
def Res.map {A B : Type} (f : A → B) : Res A → Res B
  | .unit => .unit
  | .val a => .val (f a)
  | .opt o => .opt (o.map f)
  | .ref a => .ref (f a)
  | .optRef o => .optRef (o.map f)
  | .refs l => .refs (l.map f)
  | .vals l => .vals (l.map f)
  | .nat n => .nat n
  | .bool b => .bool b
  | .hint n m => .hint n m
  | .read n l => .read n (l.map f)
  | .nats l => .nats l
  | .entries l => .entries (l.map fun p => (p.1, f p.2))
  | .optRefs l => .optRefs (l.map (Option.map f))
  | .skipped => .skipped

/-- What the client sees, with the items in it replaced. -/
def Obs.map {A B : Type} (f : A → B) : Obs A → Obs B
  | .handle n => .handle n
  | .res r => .res (r.map f)
  | .panicked => .panicked
  | .skipped => .skipped

/-- The same action with the items in it replaced, where `I0` - `I3` say what that means for the single calls. -/
inductive Op.Image {K0 K1 K2 K3 L0 L1 L2 L3 : Type} (I0 : K0 → L0 → Prop) (I1 : K1 → L1 → Prop) (I2 : K2 → L2 → Prop) (I3 : K3 → L3 → Prop) :
    Op K0 K1 K2 K3 → Op L0 L1 L2 L3 → Prop
  | ctor {k k'} : I0 k k' → Image I0 I1 I2 I3 (.ctor k) (.ctor k')
  | un {h k k'} : I1 k k' → Image I0 I1 I2 I3 (.un h k) (.un h k')
  | fork {h k k'} : I2 k k' → Image I0 I1 I2 I3 (.fork h k) (.fork h k')
  | bin {h h' k k'} : I3 k k' → Image I0 I1 I2 I3 (.bin h h' k) (.bin h h' k')
  | drop {h} : Image I0 I1 I2 I3 (.drop h) (.drop h)

/-- Two lists that correspond element by element. -/
inductive Pairwise2 {X Y : Type} (R : X → Y → Prop) : List X → List Y → Prop
  | nil : Pairwise2 R [] []
  | cons {x y xs ys} : R x y → Pairwise2 R xs ys → Pairwise2 R (x :: xs) (y :: ys)

/-- Two runs, the second with every item replaced by `f` of it: the client sees the same with the items replaced, the same destructors ran and the same
clones were made, and every container holds the same contents with the items replaced (`g`); or both abort. -/
def RunsImage {A B C C' D D' : Type} (f : A → B) (g : D → D') (V : C → D → Prop) (V' : C' → D' → Prop) (o : Out (World A C) (List (Obs A)))
    (o' : Out (World B C') (List (Obs B))) : Prop :=
  (∃ os w w', o = .ok os w ∧ o' = .ok (os.map (Obs.map f)) w' ∧ w'.next = w.next ∧ w'.log = w.log.map f ∧ w'.made = w.made.map f ∧
    ∀ h, (w.heap h = none ∧ w'.heap h = none) ∨ ∃ c c' d, w.heap h = some c ∧ w'.heap h = some c' ∧ V c d ∧ V' c' (g d)) ∨
  (o = .abort ∧ o' = .abort)

/-! ### Machines -/

/-- The world with containers and items replaced. -/
def World.image {A B D D' : Type} (f : A → B) (g : D → D') (w : World A D) : World B D' :=
  { next := w.next, heap := fun i => (w.heap i).map g, log := w.log.map f, made := w.made.map f }

/-- Two tables of calls that correspond. -/
structure MachineNat {A B D D' K0 K1 K2 K3 L0 L1 L2 L3 : Type} (f : A → B) (g : D → D') (I0 : K0 → L0 → Prop) (I1 : K1 → L1 → Prop)
    (I2 : K2 → L2 → Prop) (I3 : K3 → L3 → Prop) (m : Machine A D K0 K1 K2 K3) (m' : Machine B D' L0 L1 L2 L3) : Prop where
  ctor : ∀ k k', I0 k k' → Natural g (List.map f) (m.ctor k) (m'.ctor k')
  un : ∀ k k', I1 k k' → Natural (Res.map f) (Prod.map g (List.map f)) (m.un k) (m'.un k')
  fork : ∀ k k', I2 k k' → Natural (Option.map g) (Prod.map g (List.map f)) (m.fork k) (m'.fork k')
  bin : ∀ k k', I3 k k' → Natural (Res.map f) (Prod.map (Prod.map g g) (List.map f)) (m.bin k) (m'.bin k')
  dtor : Natural id (Prod.map g (List.map f)) m.dtor m'.dtor
  born : ∀ k k' d, I2 k k' → m'.born k' (g d) = (m.born k d).map f

section
variable {A B D D' K0 K1 K2 K3 L0 L1 L2 L3 : Type} {f : A → B} {g : D → D'} {I0 : K0 → L0 → Prop} {I1 : K1 → L1 → Prop}
  {I2 : K2 → L2 → Prop} {I3 : K3 → L3 → Prop} {m : Machine A D K0 K1 K2 K3} {m' : Machine B D' L0 L1 L2 L3}

theorem World.put_image (w : World A D) (h : Nat) (c : Option D) : (w.image f g).put h (c.map g) = (w.put h c).image f g := by
  simp only [World.image, World.put, World.mk.injEq, and_true, true_and]
  funext i; split <;> rfl

theorem MachineNat.step (hm : MachineNat f g I0 I1 I2 I3 m m') {op : Op K0 K1 K2 K3} {op' : Op L0 L1 L2 L3} (h : Op.Image I0 I1 I2 I3 op op') :
    Natural (Obs.map f) (World.image f g) (m.step op) (m'.step op') := by
  intro w
  cases h with
  | ctor hk =>
    rename_i k k'
    have e := hm.ctor k k' hk w.log
    simp only [Machine.step, World.image] at e ⊢
    rw [e]
    cases m.ctor k w.log <;> simp only [Out.image, Obs.map, World.put] <;> try rfl
    congr 2
    funext i; dsimp only; split <;> rfl
  | un hk =>
    rename_i i k k'
    simp only [Machine.step, World.image]
    cases w.heap i with
    | none => rfl
    | some c =>
      have e := hm.un k k' hk (c, w.log)
      simp only [Prod.map] at e
      simp only [Option.map_some, e]
      cases m.un k (c, w.log) <;> simp only [Out.image, Obs.map, World.put, Prod.map] <;> try rfl
      all_goals
        congr 2
        funext j; dsimp only; split <;> rfl
  | fork hk =>
    rename_i i k k'
    simp only [Machine.step, World.image]
    cases w.heap i with
    | none => rfl
    | some c =>
      have e := hm.fork k k' hk (c, w.log)
      have hb := hm.born k k' c hk
      simp only [Prod.map] at e
      simp only [Option.map_some, e]
      cases m.fork k (c, w.log) with
      | ok o s =>
        cases o <;> simp only [Out.image, Obs.map, World.put, Prod.map, Option.map_some, Option.map_none, hb]
        · congr 2
          funext j; dsimp only; split <;> rfl
        · congr 2
          · funext j; dsimp only; split <;> first | rfl | (split <;> rfl)
          · exact (List.map_append ..).symm
      | panic s =>
        simp only [Out.image, Obs.map, World.put, Prod.map, hb]
        congr 2
        · funext j; dsimp only; split <;> rfl
        · exact (List.map_append ..).symm
      | _ => rfl
  | bin hk =>
    rename_i i j k k'
    simp only [Machine.step, World.image]
    cases w.heap i with
    | none => rfl
    | some c =>
      cases w.heap j with
      | none => rfl
      | some c' =>
        simp only [Option.map_some]
        by_cases hij : i = j
        · simp only [if_pos hij]; rfl
        · simp only [if_neg hij]
          have e := hm.bin k k' hk ((c, c'), w.log)
          simp only [Prod.map] at e
          rw [e]
          cases m.bin k ((c, c'), w.log) <;> simp only [Out.image, Obs.map, World.put, Prod.map] <;> try rfl
          all_goals
            congr 2
            funext j; dsimp only; split <;> first | rfl | (split <;> rfl)
  | drop =>
    rename_i i
    simp only [Machine.step, World.image]
    cases w.heap i with
    | none => rfl
    | some c =>
      have e := hm.dtor (c, w.log)
      simp only [Prod.map] at e
      simp only [Option.map_some, e]
      cases m.dtor (c, w.log) <;> simp only [Out.image, Obs.map, Res.map, World.put, Prod.map] <;> try rfl
      all_goals
        congr 2
        funext j; dsimp only; split <;> rfl

theorem MachineNat.run (hm : MachineNat f g I0 I1 I2 I3 m m') {ops : List (Op K0 K1 K2 K3)} {ops' : List (Op L0 L1 L2 L3)}
    (h : Pairwise2 (Op.Image I0 I1 I2 I3) ops ops') : Natural (List.map (Obs.map f)) (World.image f g) (m.run ops) (m'.run ops') := by
  induction h with
  | nil => intro w; rfl
  | cons hx _ ih =>
    intro w
    simp only [Machine.run, M.bind_run, hm.step hx w]
    cases m.step _ w with
    | ok a s =>
      simp only [Out.image, Out.andThen_ok, ih s]
      cases m.run _ s <;> rfl
    | _ => rfl

end

/-! ### The wrappers -/
section
variable {A B C D α β : Type} {f : A → B} {g : C → D} {dp : B → Bool}

theorem natural_ask {x : M C α} {y : M D β} {k : α → β} (h : Natural k g x y) {r : α → Res A} {r' : β → Res B} (hr : ∀ a, r' (k a) = (r a).map f) :
    Natural (Res.map f) (Prod.map g (List.map f)) (ask x r) (ask y r') := by
  rintro ⟨c, log⟩
  simp only [ask, M.bind_run, M.onFst_run, M.pure_run, Prod.map, h c]
  cases x c <;> simp [Out.image, Out.mapState, hr, Prod.map]

theorem natural_dropSlice (l : List A) : Natural id (Prod.map g (List.map f)) (dropSlice (dp ∘ f) l) (dropSlice dp (l.map f)) := by
  rintro ⟨c, log⟩
  simp only [dropSlice, List.countP_map]
  split <;> simp [Out.image, Prod.map]

theorem natural_onUnwind {σ τ : Type} {h : σ → τ} {k : α → β} {x : M σ α} {y : M τ β} {u : M σ Unit} {v : M τ Unit} (hx : Natural k h x y)
    (hu : Natural id h u v) : Natural k h (M.onUnwind x u) (M.onUnwind y v) := by
  intro s
  simp only [M.onUnwind, hx s]
  cases x s <;> simp only [Out.image]
  rw [hu]
  cases u _ <;> simp [Out.image]

theorem natural_giving {l : List A} {x : M C α} {y : M D β} {k : α → β} (h : Natural k g x y) {r : α → Res A} {r' : β → Res B}
    (hr : ∀ a, r' (k a) = (r a).map f) :
    Natural (Res.map f) (Prod.map g (List.map f)) (giving (dp ∘ f) l x r) (giving dp (l.map f) y r') :=
  natural_onUnwind (natural_ask h hr) (natural_dropSlice l)

theorem natural_logged {x : M (C × List A) Unit} {y : M (D × List B) Unit} (h : Natural id (Prod.map g (List.map f)) x y) :
    Natural (Res.map f) (Prod.map g (List.map f)) (logged x) (logged y) := by
  intro s
  simp only [logged, M.bind_run, M.pure_run, h s]
  cases x s <;> simp [Out.image, Res.map]

theorem natural_forking {x : M C C} {y : M D D} (h : Natural g g x y) :
    Natural (Option.map g) (Prod.map g (List.map f)) (forking x) (forking y) := by
  rintro ⟨c, log⟩
  simp only [forking, M.bind_run, M.onFst_run, M.pure_run, Prod.map, h c]
  cases x c <;> simp [Out.image, Out.mapState, Prod.map]

theorem natural_some {x : M (C × List A) C} {y : M (D × List B) D} (h : Natural g (Prod.map g (List.map f)) x y) :
    Natural (Option.map g) (Prod.map g (List.map f)) (do return some (← x)) (do return some (← y)) := by
  intro s
  simp only [M.bind_run, M.pure_run, h s]
  cases x s <;> simp [Out.image]

theorem natural_guarded {q : C → Bool} {q' : D → Bool} (hq : ∀ c, q' (g c) = q c) {a : α} {b : β} {k : α → β} (hk : k a = b) {x : M (C × List A) α}
    {y : M (D × List B) β} (h : Natural k (Prod.map g (List.map f)) x y) :
    Natural k (Prod.map g (List.map f)) (guarded q a x) (guarded q' b y) := by
  intro s
  simp only [guarded, Prod.map_fst, hq]
  split
  · exact h s
  · simp [Out.image, hk]

theorem natural_making {l : List A} {x : M Unit C} {y : M Unit D} (h : Natural g id x y) :
    Natural g (List.map f) (making (dp ∘ f) l x) (making dp (l.map f) y) := by
  intro log
  have h1 : Natural g (Prod.map id (List.map f)) (M.onFst x : M (Unit × List A) C) (M.onFst y) := by
    rintro ⟨c, log⟩
    simp only [M.onFst_run, Prod.map, id]
    rw [show y c = (x c).image g id from h c]
    cases x c <;> simp [Out.image, Out.mapState]
  have := natural_onUnwind h1 (natural_dropSlice (dp := dp) l) ((), log)
  simp only [Prod.map, id] at this
  simp only [making, this]
  cases M.onUnwind (M.onFst x) (dropSlice (dp ∘ f) l) ((), log) <;> simp [Out.image, Out.mapState]

theorem owned_map (it : It A) : It.owned (it.map (Ev.map f)) = it.owned.map f := by
  induction it with
  | nil => rfl
  | cons e r ih => cases e <;> simp [It.owned, Ev.map, ih]

theorem items_map (it : It A) : It.items (it.map (Ev.map f)) = it.items.map f := by
  induction it with
  | nil => rfl
  | cons e r ih => cases e <;> simp [It.items, Ev.map, ih]

theorem natural_borrowing {it : It A} {x : M (It A × List A) C} {y : M (It B × List B) D}
    (h : Natural g (Prod.map (List.map (Ev.map f)) (List.map f)) x y) :
    Natural g (List.map f) (borrowing it x) (borrowing (it.map (Ev.map f)) y) := by
  intro log
  have := h (it, log)
  simp only [Prod.map] at this
  simp only [borrowing, this]
  cases x (it, log) <;> simp [Out.image, Out.mapState, owned_map]

theorem natural_both {x : M (C × C) Unit} {y : M (D × D) Unit} (h : Natural id (Prod.map g g) x y) :
    Natural (Res.map f) (Prod.map (Prod.map g g) (List.map f)) (both x) (both y) := by
  rintro ⟨c, log⟩
  simp only [both, M.bind_run, M.onFst_run, M.pure_run, Prod.map_fst, Prod.map_snd, h c]
  cases x c <;> simp [Out.image, Out.mapState, Res.map]

end
end Verif
