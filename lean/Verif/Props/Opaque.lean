import Verif.Opaque
import Verif.Props.Builds
/-
C110: what the items are never shows.
-/
namespace Verif
section
variable {A B D D' K0 K1 K2 K3 L0 L1 L2 L3 : Type} {f : A → B} {g : D → D'} {I0 : K0 → L0 → Prop} {I1 : K1 → L1 → Prop}
  {I2 : K2 → L2 → Prop} {I3 : K3 → L3 → Prop} {m : Machine A D K0 K1 K2 K3} {m' : Machine B D' L0 L1 L2 L3}

/-- Machines that refine corresponding machines over contents run corresponding programs alike. -/
theorem MachineNat.runs {C C' : Type} {R : C → D → Prop} {R' : C' → D' → Prop} {p : Machine A C K0 K1 K2 K3} {p' : Machine B C' L0 L1 L2 L3}
    (hm : MachineNat f g I0 I1 I2 I3 m m') (h1 : MachineRel R p m) (h2 : MachineRel R' p' m') {ops : List (Op K0 K1 K2 K3)}
    {ops' : List (Op L0 L1 L2 L3)} (h : Pairwise2 (Op.Image I0 I1 I2 I3) ops ops') :
    RunsImage f g R R' (p.run ops World.empty) (p'.run ops' World.empty) := by
  have r1 := h1.run_ref ops (w := World.empty) (v := World.empty) MachineRel.empty_rel
  have r2 := h2.run_ref ops' (w := World.empty) (v := World.empty) MachineRel.empty_rel
  have e := hm.run h World.empty
  rw [show (World.empty : World A D).image f g = World.empty from rfl] at e
  rw [e] at r2
  cases e1 : p.run ops World.empty with
  | panic s => exact absurd e1 (p.run_ne_panic ops _ s)
  | ub => rw [e1] at r1; exact r1.elim
  | diverge => rw [e1] at r1; exact r1.elim
  | abort =>
    rw [e1] at r1
    rw [show m.run ops World.empty = .abort from r1] at r2
    cases e2 : p'.run ops' World.empty with
    | abort => exact .inr ⟨rfl, rfl⟩
    | ok a s => rw [e2] at r2; obtain ⟨t, h1, _⟩ := r2; cases h1
    | panic s => exact absurd e2 (p'.run_ne_panic ops' _ s)
    | ub => rw [e2] at r2; exact r2.elim
    | diverge => rw [e2] at r2; exact r2.elim
  | ok os s =>
    rw [e1] at r1
    obtain ⟨t, h1, h2⟩ := r1
    rw [h1] at r2
    cases e2 : p'.run ops' World.empty with
    | abort => rw [e2] at r2; cases r2
    | panic s => exact absurd e2 (p'.run_ne_panic ops' _ s)
    | ub => rw [e2] at r2; exact r2.elim
    | diverge => rw [e2] at r2; exact r2.elim
    | ok os' s' =>
      rw [e2] at r2
      obtain ⟨t', h3, h4⟩ := r2
      simp only [Out.image, Out.ok.injEq] at h3
      obtain ⟨rfl, rfl⟩ := h3
      refine .inl ⟨os, s, s', rfl, rfl, ?_, ?_, ?_, fun i => ?_⟩
      · rw [h4.next, h2.next]; rfl
      · rw [h4.log, h2.log]; rfl
      · rw [h4.made, h2.made]; rfl
      · have a1 := h2.heap i
        have a2 := h4.heap i
        simp only [World.image] at a2
        cases x : t.heap i with
        | none =>
          rw [x] at a1 a2
          left
          cases y : s.heap i <;> cases z : s'.heap i <;> simp_all [RelOpt]
        | some l =>
          rw [x] at a1 a2
          right
          cases y : s.heap i <;> cases z : s'.heap i <;> simp_all [RelOpt]
          exact ⟨l, a1, a2⟩

end

/-- Two runs in which the same happens as far as one can tell without looking at the items: the same calls return or panic, with the same
numbers, answers and presence of items; or both abort. -/
def SameCourse {A B C C' : Type} (o : Out (World A C) (List (Obs A))) (o' : Out (World B C') (List (Obs B))) : Prop :=
  (∃ os w os' w', o = .ok os w ∧ o' = .ok os' w' ∧ os.map (Obs.map fun _ => ()) = os'.map (Obs.map fun _ => ())) ∨ (o = .abort ∧ o' = .abort)

theorem RunsImage.same_course {A B C C' C'' D D' D'' : Type} {g : D → D''} {g' : D' → D''} {V : C → D → Prop} {V' : C' → D' → Prop}
    {V'' W'' : C'' → D'' → Prop} {o : Out (World A C) (List (Obs A))} {o' : Out (World B C') (List (Obs B))}
    {p : Out (World Unit C'') (List (Obs Unit))} (h : RunsImage (fun _ => ()) g V V'' o p) (h' : RunsImage (fun _ => ()) g' V' W'' o' p) :
    SameCourse o o' := by
  rcases h with ⟨os, w, w', h1, h2, _⟩ | ⟨h1, h2⟩ <;> rcases h' with ⟨os', v, v', h3, h4, _⟩ | ⟨h3, h4⟩
  · rw [h2] at h4
    injection h4 with h5
    exact .inl ⟨os, w, os', v, h1, h3, h5⟩
  · rw [h2] at h4; cases h4
  · rw [h2] at h4; cases h4
  · exact .inr ⟨h1, h3⟩

theorem MachineNat.same_course {A B C C' D D' U K0 K1 K2 K3 L0 L1 L2 L3 M0 M1 M2 M3 : Type} {g : D → U} {g' : D' → U} {I0 : K0 → M0 → Prop}
    {I1 : K1 → M1 → Prop} {I2 : K2 → M2 → Prop} {I3 : K3 → M3 → Prop} {J0 : L0 → M0 → Prop} {J1 : L1 → M1 → Prop} {J2 : L2 → M2 → Prop}
    {J3 : L3 → M3 → Prop} {R : C → D → Prop} {R' : C' → D' → Prop} {p : Machine A C K0 K1 K2 K3} {p' : Machine B C' L0 L1 L2 L3}
    {m : Machine A D K0 K1 K2 K3} {m' : Machine B D' L0 L1 L2 L3} {u : Machine Unit U M0 M1 M2 M3}
    (hm : MachineNat (fun _ => ()) g I0 I1 I2 I3 m u) (hm' : MachineNat (fun _ => ()) g' J0 J1 J2 J3 m' u) (h1 : MachineRel R p m) (h2 : MachineRel R' p' m')
    {ops : List (Op K0 K1 K2 K3)} {ops' : List (Op L0 L1 L2 L3)} {ers : List (Op M0 M1 M2 M3)} (h : Pairwise2 (Op.Image I0 I1 I2 I3) ops ers)
    (h' : Pairwise2 (Op.Image J0 J1 J2 J3) ops' ers) : SameCourse (p.run ops World.empty) (p'.run ops' World.empty) := by
  have r1 := h1.run_ref ops (w := World.empty) (v := World.empty) MachineRel.empty_rel
  have r2 := h2.run_ref ops' (w := World.empty) (v := World.empty) MachineRel.empty_rel
  have e := (hm.run h World.empty).symm.trans (hm'.run h' World.empty)
  cases e1 : p.run ops World.empty with
  | panic s => exact absurd e1 (p.run_ne_panic ops _ s)
  | ub => rw [e1] at r1; exact r1.elim
  | diverge => rw [e1] at r1; exact r1.elim
  | abort =>
    rw [e1] at r1
    rw [show m.run ops World.empty = .abort from r1] at e
    cases e2 : p'.run ops' World.empty with
    | abort => exact .inr ⟨rfl, rfl⟩
    | ok a s => rw [e2] at r2; obtain ⟨t, h1, _⟩ := r2; rw [h1] at e; cases e
    | panic s => exact absurd e2 (p'.run_ne_panic ops' _ s)
    | ub => rw [e2] at r2; exact r2.elim
    | diverge => rw [e2] at r2; exact r2.elim
  | ok os s =>
    rw [e1] at r1
    obtain ⟨t, h1, _⟩ := r1
    rw [h1] at e
    cases e2 : p'.run ops' World.empty with
    | abort => rw [e2] at r2; rw [show m'.run ops' World.empty = .abort from r2] at e; cases e
    | panic s => exact absurd e2 (p'.run_ne_panic ops' _ s)
    | ub => rw [e2] at r2; exact r2.elim
    | diverge => rw [e2] at r2; exact r2.elim
    | ok os' s' =>
      rw [e2] at r2
      obtain ⟨t', h3, _⟩ := r2
      rw [h3] at e
      injection e with e5
      exact .inl ⟨os, s, os', s', rfl, rfl, e5⟩

theorem clone_to_unit {A : Type} {cl : A → Option A} (hc : ∀ a, (cl a).isSome = true) (a : A) : some () = (cl a).map fun _ => () := by
  have := hc a
  cases h : cl a <;> simp_all

/-! ### The specification of sequences -/
namespace Spec
variable {A B : Type} {f : A → B} {dp : B → Bool} {N : Nat}

theorem natural_pushFront (v : A) : Natural id (List.map f) (pushFront N v) (pushFront N (f v)) := by
  intro l; simp only [pushFront, List.length_map]; split <;> rfl
theorem natural_pushBack (v : A) : Natural id (List.map f) (pushBack N v) (pushBack N (f v)) := by
  intro l; simp only [pushBack, List.length_map]; split <;> simp [Out.image]
theorem natural_popFront : Natural f (List.map f) popFront popFront := by
  intro l; cases l <;> rfl
theorem natural_popBack : Natural f (List.map f) popBack popBack := by
  intro l; simp only [popBack, List.getLast?_map]; cases l.getLast? <;> simp [Out.image, List.map_dropLast]
theorem natural_popFront? : Natural (Option.map f) (List.map f) popFront? popFront? := by
  intro l; cases l <;> rfl
theorem natural_popBack? : Natural (Option.map f) (List.map f) popBack? popBack? := by
  intro l; simp [popBack?, Out.image, List.map_dropLast]
theorem natural_index (i : Nat) : Natural f (List.map f) (index i) (index i) := by
  intro l; simp only [index, List.getElem?_map]; cases l[i]? <;> rfl
theorem natural_set (i : Nat) (v : A) : Natural f (List.map f) (set i v) (set i (f v)) := by
  intro l; simp only [set, List.getElem?_map]; cases l[i]? <;> simp [Out.image, List.map_set]
theorem natural_get (i : Nat) : Natural (Option.map f) (List.map f) (get i) (get i) := by
  intro l; simp [get, Out.image]
theorem natural_replaceGet (i : Nat) (v : A) : Natural f (List.map f) (replaceGet i v) (replaceGet i (f v)) := by
  intro l; simp only [replaceGet, List.getElem?_map]; cases l[i]? <;> simp [Out.image, List.map_set]
theorem natural_insert (i : Nat) (v : A) : Natural id (List.map f) (insert N i v) (insert N i (f v)) := by
  intro l; simp only [insert, List.length_map]; split <;> simp [Out.image, List.map_take, List.map_drop]
theorem natural_insertOrdered {s : List A → A → Option (Except Nat Nat)} {s' : List B → B → Option (Except Nat Nat)}
    (hs : ∀ l v, s' (l.map f) (f v) = s l v) (v : A) : Natural id (List.map f) (insertOrdered N s v) (insertOrdered N s' (f v)) := by
  intro l
  simp only [insertOrdered, List.length_map, hs]
  split
  · rcases s l v with _ | ⟨_ | _⟩
    · rfl
    · exact natural_insert _ v l
    · exact natural_insert _ v l
  · rfl
theorem natural_remove (i : Nat) : Natural f (List.map f) (remove i) (remove i) := by
  intro l; simp only [remove, List.getElem?_map]; cases l[i]? <;> simp [Out.image, List.map_take, List.map_drop]
theorem natural_remove? (i : Nat) : Natural (Option.map f) (List.map f) (remove? i) (remove? i) := by
  intro l; simp [remove?, Out.image, List.map_take, List.map_drop]
theorem natural_splitOff (i : Nat) : Natural (List.map f) (List.map f) (splitOff i) (splitOff i) := by
  intro l; simp only [splitOff, List.length_map]; split <;> simp [Out.image, List.map_take, List.map_drop]
theorem natural_fromFront (i : Nat) : Natural (List.map f) (List.map f) (fromFront i) (fromFront i) := by
  intro l; simp only [fromFront, List.length_map]; split <;> simp [Out.image, List.map_take, List.map_drop]
theorem natural_fromBack (i : Nat) : Natural (List.map f) (List.map f) (fromBack i) (fromBack i) := by
  intro l; simp only [fromBack, List.length_map]; split <;> simp [Out.image, List.map_take, List.map_drop]
theorem natural_mutate {h : List A → List A} {h' : List B → List B} (hh : ∀ l, h' (l.map f) = (h l).map f) :
    Natural id (List.map f) (mutate h) (mutate h') := by
  intro l; simp only [mutate, List.length_map, hh, Out.image]; split <;> simp
theorem natural_write (buf : List A) : Natural id (List.map f) (write N buf) (write N (buf.map f)) := by
  intro l; simp [write, Out.image, List.map_take]
theorem natural_read (n : Nat) : Natural (fun r => (r.1, r.2.map f)) (List.map f) (read n) (read n) := by
  intro l; simp [read, Out.image, List.map_take, List.map_drop]
theorem natural_append : Natural id (Prod.map (List.map f) (List.map f)) (append N) (append N) := by
  rintro ⟨l, k⟩; simp only [append, Prod.map, List.length_map]; split <;> simp [Out.image]
theorem natural_drainFromFront (n : Nat) : Natural id (Prod.map (List.map f) (List.map f)) (drainFromFront N n) (drainFromFront N n) := by
  rintro ⟨l, k⟩; simp only [drainFromFront, Prod.map, List.length_map]; split <;> simp [Out.image, List.map_take, List.map_drop]
theorem natural_drainFromBack (n : Nat) : Natural id (Prod.map (List.map f) (List.map f)) (drainFromBack N n) (drainFromBack N n) := by
  rintro ⟨l, k⟩; simp only [drainFromBack, Prod.map, List.length_map]; split <;> simp [Out.image, List.map_take, List.map_drop]
theorem natural_len : Natural id (List.map f) (len : M (List A) Nat) len := by intro l; simp [len, Out.image]
theorem natural_isEmpty : Natural id (List.map f) (isEmpty : M (List A) Bool) isEmpty := by intro l; simp [isEmpty, Out.image]
theorem natural_isFull : Natural id (List.map f) (isFull N : M (List A) Bool) (isFull N) := by intro l; simp [isFull, Out.image]
theorem natural_items : Natural (List.map f) (List.map f) items items := by intro l; rfl
theorem natural_sizeHint : Natural id (List.map f) (sizeHint : M (List A) _) sizeHint := by intro l; simp [sizeHint, Out.image]
theorem natural_drainFrom : Natural (List.map f) (List.map f) drainFrom drainFrom := by intro l; rfl
theorem natural_unit (v : A) : Natural (List.map f) id (unit N v) (unit N (f v)) := by
  intro l; simp only [unit, id]; split <;> rfl
theorem natural_pair (v w : A) : Natural (List.map f) id (pair N v w) (pair N (f v) (f w)) := by
  intro l; simp only [pair, id]; split <;> rfl

theorem dropping_map (d l l' log : List A) :
    dropping dp (d.map f) (l.map f) (l'.map f) (log.map f) = (dropping (dp ∘ f) d l l' log).image id (Prod.map (List.map f) (List.map f)) := by
  simp only [dropping, List.countP_map]; split <;> simp [Out.image]
theorem droppingSeq_map (d l l' log : List A) :
    droppingSeq dp (d.map f) (l.map f) (l'.map f) (log.map f) = (droppingSeq (dp ∘ f) d l l' log).image id (Prod.map (List.map f) (List.map f)) := by
  simp only [droppingSeq, List.any_map, List.findIdx_map]; split <;> simp [Out.image, List.map_take]
theorem panicDropping_map {α β : Type} {k : α → β} (d l log : List A) :
    panicDropping dp (d.map f) (l.map f) (log.map f) = (panicDropping (dp ∘ f) d l log).image k (Prod.map (List.map f) (List.map f)) := by
  simp only [panicDropping, List.any_map]; split <;> simp [Out.image]

theorem natural_dropLeft (i : Nat) : Natural id (Prod.map (List.map f) (List.map f)) (dropLeft (dp ∘ f) i) (dropLeft dp i) := by
  rintro ⟨l, log⟩
  simp only [dropLeft, Prod.map, List.length_map, ← List.map_take, ← List.map_drop, dropping_map]; split <;> rfl
theorem natural_dropRight (i : Nat) : Natural id (Prod.map (List.map f) (List.map f)) (dropRight (dp ∘ f) i) (dropRight dp i) := by
  rintro ⟨l, log⟩
  simp only [dropRight, Prod.map, List.length_map, ← List.map_take, ← List.map_drop, dropping_map]; split <;> rfl
theorem natural_clear : Natural id (Prod.map (List.map f) (List.map f)) (clear (dp ∘ f)) (clear dp) :=
  fun s => dropping_map s.1 s.1 [] s.2
theorem natural_drop : Natural id (Prod.map (List.map f) (List.map f)) (drop (dp ∘ f)) (drop dp) :=
  fun s => dropping_map s.1 s.1 s.1 s.2
theorem natural_dropLeftSeq (i : Nat) : Natural id (Prod.map (List.map f) (List.map f)) (dropLeftSeq (dp ∘ f) i) (dropLeftSeq dp i) := by
  rintro ⟨l, log⟩
  simp only [dropLeftSeq, Prod.map, List.length_map, ← List.map_take, ← List.map_drop, droppingSeq_map]; split <;> rfl
theorem natural_dropRightSeq (i : Nat) : Natural id (Prod.map (List.map f) (List.map f)) (dropRightSeq (dp ∘ f) i) (dropRightSeq dp i) := by
  rintro ⟨l, log⟩
  simp only [dropRightSeq, Prod.map, List.length_map, ← List.map_take, ← List.map_drop, droppingSeq_map]; split <;> rfl
theorem natural_clearSeq : Natural id (Prod.map (List.map f) (List.map f)) (clearSeq (dp ∘ f)) (clearSeq dp) :=
  fun s => droppingSeq_map s.1 s.1 [] s.2
theorem natural_dropSeq : Natural id (Prod.map (List.map f) (List.map f)) (dropSeq (dp ∘ f)) (dropSeq dp) :=
  fun s => droppingSeq_map s.1 s.1 s.1 s.2

theorem natural_extend (it : It A) : Natural id (Prod.map (List.map f) (List.map f)) (extend N (dp ∘ f) it) (extend N dp (it.map (Ev.map f))) := by
  rintro ⟨l, log⟩
  induction it generalizing l with
  | nil => rfl
  | cons e r ih =>
    cases e with
    | panic => simp only [List.map_cons, Ev.map, extend, Prod.map, owned_map]; exact panicDropping_map _ _ _
    | item a =>
      simp only [List.map_cons, Ev.map, extend, Prod.map, owned_map, List.length_map]
      split
      · have := ih (l ++ [a])
        simpa [Prod.map] using this
      · exact panicDropping_map (a :: It.owned r) _ _

theorem natural_insertFrom (i n : Nat) (it : It A) :
    Natural id (Prod.map (List.map f) (List.map f)) (insertFrom N (dp ∘ f) i n it) (insertFrom N dp i n (it.map (Ev.map f))) := by
  rintro ⟨l, log⟩
  simp only [insertFrom, Prod.map, List.length_map, items_map, ← List.map_take, ← List.map_drop, ← List.map_append, owned_map, List.countP_map]
  split
  · split
    · split <;> simp [Out.image, List.map_take, List.map_drop]
    · exact panicDropping_map _ [] _
  · exact panicDropping_map _ _ _

theorem natural_insertFromOrExtend (i n : Nat) (it : It A) :
    Natural id (Prod.map (List.map f) (List.map f)) (insertFromOrExtend N (dp ∘ f) i n it) (insertFromOrExtend N dp i n (it.map (Ev.map f))) := by
  intro s
  simp only [insertFromOrExtend, Prod.map_fst, List.length_map]
  split
  · exact natural_extend it s
  · exact natural_insertFrom i n it s

theorem natural_fromIter (it : It A) : Natural (List.map f) (List.map f) (fromIter N (dp ∘ f) it) (fromIter N dp (it.map (Ev.map f))) := by
  intro log
  have := natural_extend (N := N) (dp := dp) (f := f) it ([], log)
  simp only [Prod.map, List.map_nil] at this
  simp only [fromIter, this]
  cases extend N (dp ∘ f) it ([], log) <;> simp only [Out.image, Prod.map, List.any_map]
  split <;> simp

theorem natural_collectFrom (n : Nat) : Natural (List.map f) (Prod.map (List.map (Ev.map f)) (List.map f)) (collectFrom N (dp ∘ f) n) (collectFrom N dp n) := by
  rintro ⟨it, log⟩
  simp only [collectFrom, Prod.map, List.length_map, items_map, ← List.map_take, ← List.map_drop, ← List.map_append, List.any_map]
  repeat' split
  all_goals simp [Out.image]

theorem bornOf_map {cl : A → Option A} {cl' : B → Option B} (hc : ∀ a, cl' (f a) = (cl a).map f) (l : List A) :
    bornOf cl' (l.map f) = (bornOf cl l).map f := by
  induction l with
  | nil => rfl
  | cons a r ih => simp only [List.map_cons, bornOf, hc]; cases cl a <;> simp [ih]

theorem natural_clone {cl : A → Option A} {cl' : B → Option B} (hc : ∀ a, cl' (f a) = (cl a).map f) :
    Natural (List.map f) (Prod.map (List.map f) (List.map f)) (clone (dp ∘ f) cl) (clone dp cl') := by
  rintro ⟨l, log⟩
  simp only [clone, Prod.map, bornOf_map hc, List.length_map, panicDropping_map (k := List.map f)]
  split <;> rfl
theorem natural_cloneLeaky {cl : A → Option A} {cl' : B → Option B} (hc : ∀ a, cl' (f a) = (cl a).map f) :
    Natural (List.map f) (Prod.map (List.map f) (List.map f)) (cloneLeaky cl) (cloneLeaky cl') := by
  rintro ⟨l, log⟩
  simp only [cloneLeaky, Prod.map, bornOf_map hc, List.length_map]
  split <;> rfl

theorem part_map (w : Nat × Nat) (l : List A) : part w (l.map f) = (part w l).map f := by simp [part, List.map_take, List.map_drop]

theorem natural_within {α β : Type} {k : α → β} (lo hi : Bound) (cuts : List Cut) {x : M (List A) α} {y : M (List B) β} (h : Natural k (List.map f) x y) :
    Natural k (List.map f) (within lo hi cuts x) (within lo hi cuts y) := by
  intro l
  simp only [within, List.length_map, part_map]
  cases window lo hi cuts l.length with
  | none => rfl
  | some w => dsimp only; rw [h]; cases x (part w l) <;> simp [Out.image, Out.mapState, List.map_take, List.map_drop]

theorem natural_cloneWithin {cl : A → Option A} {cl' : B → Option B} (hc : ∀ a, cl' (f a) = (cl a).map f) (lo hi : Bound) (cuts : List Cut) :
    Natural (List.map f) (Prod.map (List.map f) (List.map f)) (cloneWithin (dp ∘ f) cl lo hi cuts) (cloneWithin dp cl' lo hi cuts) := by
  rintro ⟨l, log⟩
  simp only [cloneWithin, Prod.map, List.length_map, part_map, bornOf_map hc, panicDropping_map (k := List.map f)]
  cases window lo hi cuts l.length with
  | none => rfl
  | some w => dsimp only; split <;> rfl

theorem bornWithin_map {cl : A → Option A} {cl' : B → Option B} (hc : ∀ a, cl' (f a) = (cl a).map f) (lo hi : Bound) (cuts : List Cut) (l : List A) :
    bornWithin cl' lo hi cuts (l.map f) = (bornWithin cl lo hi cuts l).map f := by
  simp only [bornWithin, List.length_map, part_map, bornOf_map hc]
  cases window lo hi cuts l.length <;> rfl

end Spec

namespace Chunk
variable {A B : Type}

/-- The same constructor with the items replaced. -/
inductive Ctor.Image (f : A → B) : Ctor A → Ctor B → Prop
  | new : Image f .new .new
  | unit {v} : Image f (.unit v) (.unit (f v))
  | pair {v w} : Image f (.pair v w) (.pair (f v) (f w))
  | collectFrom {n it} : Image f (.collectFrom n it) (.collectFrom n (it.map (Ev.map f)))
  | fromIter {it} : Image f (.fromIter it) (.fromIter (it.map (Ev.map f)))

/-- The same call with the items replaced.  A search function must give the same answer, and a client's own code must write
the replaced items, when they are given the replaced items. -/
inductive Un.Image (f : A → B) : Un A → Un B → Prop
  | len : Image f .len .len
  | isEmpty : Image f .isEmpty .isEmpty
  | isFull : Image f .isFull .isFull
  | asSlice : Image f .asSlice .asSlice
  | index {i} : Image f (.index i) (.index i)
  | pushFront {v} : Image f (.pushFront v) (.pushFront (f v))
  | pushBack {v} : Image f (.pushBack v) (.pushBack (f v))
  | popFront : Image f .popFront .popFront
  | popBack : Image f .popBack .popBack
  | dropLeft {i} : Image f (.dropLeft i) (.dropLeft i)
  | dropRight {i} : Image f (.dropRight i) (.dropRight i)
  | clear : Image f .clear .clear
  | set {i v} : Image f (.set i v) (.set i (f v))
  | insert {i v} : Image f (.insert i v) (.insert i (f v))
  | insertOrdered {s s' v} : (∀ l w, s' (l.map f) (f w) = s l w) → Image f (.insertOrdered s v) (.insertOrdered s' (f v))
  | insertFrom {i n it} : Image f (.insertFrom i n it) (.insertFrom i n (it.map (Ev.map f)))
  | remove {i} : Image f (.remove i) (.remove i)
  | extend {it} : Image f (.extend it) (.extend (it.map (Ev.map f)))
  | next : Image f .next .next
  | nextBack : Image f .nextBack .nextBack
  | sizeHint : Image f .sizeHint .sizeHint
  | mutate {h h'} : (∀ l, h' (l.map f) = (h l).map f) → Image f (.mutate h) (.mutate h')
  | write {buf} : Image f (.write buf) (.write (buf.map f))
  | read {n} : Image f (.read n) (.read n)

/-- The same program with the items replaced by `f` of them. -/
abbrev Images (f : A → B) := Pairwise2 (Op.Image (Ctor.Image f) (Un.Image f) (Eq (α := Fork)) (Eq (α := Bin)))

theorem machineNat {E : Env} {N : Nat} {f : A → B} {dp : B → Bool} {cl : A → Option A} {cl' : B → Option B} (hc : ∀ a, cl' (f a) = (cl a).map f) :
    MachineNat f (List.map f) (Ctor.Image f) (Un.Image f) Eq Eq (specMachine E N (dp ∘ f) cl) (specMachine E N dp cl') where
  ctor := by
    rintro _ _ (_ | _ | _ | _ | _)
    · intro l; rfl
    · exact natural_making (l := [_]) (Spec.natural_unit _)
    · exact natural_making (l := [_, _]) (Spec.natural_pair _ _)
    · exact natural_borrowing (Spec.natural_collectFrom _)
    · exact Spec.natural_fromIter _
  un := by
    intro _ _ h
    cases h with
    | len => exact natural_ask Spec.natural_len fun _ => rfl
    | isEmpty => exact natural_ask Spec.natural_isEmpty fun _ => rfl
    | isFull => exact natural_ask Spec.natural_isFull fun _ => rfl
    | asSlice => exact natural_ask Spec.natural_items fun _ => rfl
    | index => exact natural_ask (Spec.natural_index _) fun _ => rfl
    | pushFront => exact natural_giving (l := [_]) (Spec.natural_pushFront _) fun _ => rfl
    | pushBack => exact natural_giving (l := [_]) (Spec.natural_pushBack _) fun _ => rfl
    | popFront => exact natural_ask Spec.natural_popFront fun _ => rfl
    | popBack => exact natural_ask Spec.natural_popBack fun _ => rfl
    | dropLeft => exact natural_logged (Spec.natural_dropLeft _)
    | dropRight => exact natural_logged (Spec.natural_dropRight _)
    | clear => exact natural_logged Spec.natural_clear
    | set => exact natural_giving (l := [_]) (Spec.natural_set _ _) fun _ => rfl
    | insert => exact natural_giving (l := [_]) (Spec.natural_insert _ _) fun _ => rfl
    | insertOrdered hs => exact natural_giving (l := [_]) (Spec.natural_insertOrdered hs _) fun _ => rfl
    | insertFrom =>
      dsimp only [specMachine]
      refine natural_guarded (fun _ => by simp) rfl ?_
      exact natural_logged (Spec.natural_insertFrom _ _ _)
    | remove => exact natural_ask (Spec.natural_remove _) fun _ => rfl
    | extend => exact natural_logged (Spec.natural_extend _)
    | next => exact natural_ask Spec.natural_popFront? fun _ => rfl
    | nextBack => exact natural_ask Spec.natural_popBack? fun _ => rfl
    | sizeHint => exact natural_ask Spec.natural_sizeHint fun _ => rfl
    | mutate hh => exact natural_ask (Spec.natural_mutate hh) fun _ => rfl
    | write => exact natural_ask (Spec.natural_write _) fun n => by simp [Res.map, List.map_drop]
    | read => exact natural_ask (Spec.natural_read _) fun _ => rfl
  fork := by
    rintro k _ rfl
    cases k with
    | fromFront n =>
      dsimp only [specMachine]
      refine natural_guarded (fun _ => by simp) rfl ?_
      exact natural_forking (Spec.natural_fromFront n)
    | fromBack n =>
      dsimp only [specMachine]
      refine natural_guarded (fun _ => by simp) rfl ?_
      exact natural_forking (Spec.natural_fromBack n)
    | drainFrom => exact natural_forking Spec.natural_drainFrom
    | splitOff i => exact natural_forking (Spec.natural_splitOff i)
    | clone => exact natural_some (Spec.natural_clone hc)
  bin := by
    rintro k _ rfl
    cases k with
    | append => exact natural_both Spec.natural_append
    | drainFromFront n => exact natural_both (Spec.natural_drainFromFront n)
    | drainFromBack n => exact natural_both (Spec.natural_drainFromBack n)
  dtor := Spec.natural_drop
  born := by
    rintro k _ d rfl
    cases k with
    | clone => exact Spec.bornOf_map hc d
    | _ => rfl

/-- C110 for `Chunk`: take any program and replace every item in it by another one (`f` says by which), of the same or of another type, that
clones to the corresponding item and whose destructor panics exactly if the item's does.  The client sees the same, with the items replaced. -/
theorem C110_items_never_show {E : Env} {N : Nat} (hN : 2 * N < E.W) {f : A → B} {dp : A → Bool} {dp' : B → Bool} {cl : A → Option A}
    {cl' : B → Option B} (hd : ∀ a, dp' (f a) = dp a) (hc : ∀ a, cl' (f a) = (cl a).map f) {prog : List (Op (Ctor A) (Un A) Fork Bin)}
    {prog' : List (Op (Ctor B) (Un B) Fork Bin)} (h : Images f prog prog') :
    RunsImage f (List.map f) (View E N) (View E N) ((machine E N dp cl).run prog World.empty) ((machine E N dp' cl').run prog' World.empty) := by
  obtain rfl : dp = dp' ∘ f := funext fun a => (hd a).symm
  exact (machineNat hc).runs (machineRelView hN) (machineRelView hN) h

/-- C110: two programs which differ in their items only (they become the same when the items are erased), whatever the types of the items, take
the same course, if cloning and dropping items does not panic. -/
theorem C110_same_course {E : Env} {N : Nat} (hN : 2 * N < E.W) {cl : A → Option A} {cl' : B → Option B} (hc : ∀ a, (cl a).isSome = true) (hc' : ∀ b, (cl' b).isSome = true)
    {prog : List (Op (Ctor A) (Un A) Fork Bin)} {prog' : List (Op (Ctor B) (Un B) Fork Bin)} {erased : List (Op (Ctor Unit) (Un Unit) Fork Bin)}
    (h : Images (fun _ => ()) prog erased) (h' : Images (fun _ => ()) prog' erased) :
    SameCourse ((machine E N (fun _ => false) cl).run prog World.empty) ((machine E N (fun _ => false) cl').run prog' World.empty) :=
  (C110_items_never_show hN (dp' := fun _ => false) (cl' := some) (fun _ => rfl) (clone_to_unit hc) h).same_course
    (C110_items_never_show hN (dp' := fun _ => false) (cl' := some) (fun _ => rfl) (clone_to_unit hc') h')

end Chunk

namespace Ring
variable {A B : Type}

/-- The same constructor with the items replaced. -/
inductive Ctor.Image (f : A → B) : Ctor A → Ctor B → Prop
  | new : Image f .new .new
  | unit {v} : Image f (.unit v) (.unit (f v))
  | pair {v w} : Image f (.pair v w) (.pair (f v) (f w))
  | collectFrom {n it} : Image f (.collectFrom n it) (.collectFrom n (it.map (Ev.map f)))
  | fromIter {it} : Image f (.fromIter it) (.fromIter (it.map (Ev.map f)))

/-- The same call on a slice with the items replaced. -/
inductive SliceOp.Image (f : A → B) : SliceOp A → SliceOp B → Prop
  | len : Image f .len .len
  | items : Image f .items .items
  | get {i} : Image f (.get i) (.get i)
  | index {i} : Image f (.index i) (.index i)
  | replace {i v} : Image f (.replace i v) (.replace i (f v))
  | set {i v} : Image f (.set i v) (.set i (f v))
  | mutate {h h'} : (∀ l, h' (l.map f) = (h l).map f) → Image f (.mutate h) (.mutate h')

/-- The same call with the items replaced.  A search function must give the same answer, and a client's own code must write
the replaced items, when they are given the replaced items. -/
inductive Un.Image (f : A → B) : Un A → Un B → Prop
  | len : Image f .len .len
  | isEmpty : Image f .isEmpty .isEmpty
  | isFull : Image f .isFull .isFull
  | items : Image f .items .items
  | get {i} : Image f (.get i) (.get i)
  | index {i} : Image f (.index i) (.index i)
  | replace {i v} : Image f (.replace i v) (.replace i (f v))
  | set {i v} : Image f (.set i v) (.set i (f v))
  | pushFront {v} : Image f (.pushFront v) (.pushFront (f v))
  | pushBack {v} : Image f (.pushBack v) (.pushBack (f v))
  | popFront : Image f .popFront .popFront
  | popBack : Image f .popBack .popBack
  | dropLeft {i} : Image f (.dropLeft i) (.dropLeft i)
  | dropRight {i} : Image f (.dropRight i) (.dropRight i)
  | clear : Image f .clear .clear
  | insert {i v} : Image f (.insert i v) (.insert i (f v))
  | insertOrdered {s s' v} : (∀ l w, s' (l.map f) (f w) = s l w) → Image f (.insertOrdered s v) (.insertOrdered s' (f v))
  | insertFrom {i n it} : Image f (.insertFrom i n it) (.insertFrom i n (it.map (Ev.map f)))
  | remove {i} : Image f (.remove i) (.remove i)
  | extend {it} : Image f (.extend it) (.extend (it.map (Ev.map f)))
  | next : Image f .next .next
  | nextBack : Image f .nextBack .nextBack
  | sizeHint : Image f .sizeHint .sizeHint
  | mutate {h h'} : (∀ l, h' (l.map f) = (h l).map f) → Image f (.mutate h) (.mutate h')
  | write {buf} : Image f (.write buf) (.write (buf.map f))
  | read {n} : Image f (.read n) (.read n)
  | slice {lo hi cuts k k'} : SliceOp.Image f k k' → Image f (.slice lo hi cuts k) (.slice lo hi cuts k')

/-- The same program with the items replaced by `f` of them. -/
abbrev Images (f : A → B) := Pairwise2 (Op.Image (Ctor.Image f) (Un.Image f) (Eq (α := Fork)) (Eq (α := Bin)))

theorem natural_slice {f : A → B} {dp : B → Bool} (lo hi : Bound) (cuts : List Cut) {k : SliceOp A} {k' : SliceOp B} (h : SliceOp.Image f k k') :
    Natural (Res.map f) (Prod.map (List.map f) (List.map f)) (specSliceCall (dp ∘ f) lo hi cuts k) (specSliceCall dp lo hi cuts k') := by
  cases h with
  | len => exact natural_ask (Spec.natural_within _ _ _ Spec.natural_len) fun _ => rfl
  | items => exact natural_ask (Spec.natural_within _ _ _ Spec.natural_items) fun _ => rfl
  | get => exact natural_ask (Spec.natural_within _ _ _ (Spec.natural_get _)) fun _ => rfl
  | index =>
    dsimp only [specSliceCall]
    refine natural_guarded (fun _ => by simp [inside]) rfl ?_
    exact natural_ask (Spec.natural_within _ _ _ (Spec.natural_index _)) fun _ => rfl
  | replace => exact natural_giving (l := [_]) (Spec.natural_within _ _ _ (Spec.natural_replaceGet _ _)) fun _ => rfl
  | set =>
    dsimp only [specSliceCall]
    refine natural_guarded (fun _ => by simp [inside]) rfl ?_
    exact natural_giving (l := [_]) (Spec.natural_within _ _ _ (Spec.natural_set _ _)) fun _ => rfl
  | mutate hh => exact natural_ask (Spec.natural_within _ _ _ (Spec.natural_mutate hh)) fun _ => rfl

theorem machineNat {E : Env} {N : Nat} {f : A → B} {dp : B → Bool} {cl : A → Option A} {cl' : B → Option B} (hc : ∀ a, cl' (f a) = (cl a).map f) :
    MachineNat f (List.map f) (Ctor.Image f) (Un.Image f) Eq Eq (specMachine E N (dp ∘ f) cl) (specMachine E N dp cl') where
  ctor := by
    rintro _ _ (_ | _ | _ | _ | _)
    · intro l; rfl
    · exact natural_making (l := [_]) (Spec.natural_unit _)
    · exact natural_making (l := [_, _]) (Spec.natural_pair _ _)
    · exact natural_borrowing (Spec.natural_collectFrom _)
    · exact Spec.natural_fromIter _
  un := by
    intro _ _ h
    cases h with
    | len => exact natural_ask Spec.natural_len fun _ => rfl
    | isEmpty => exact natural_ask Spec.natural_isEmpty fun _ => rfl
    | isFull => exact natural_ask Spec.natural_isFull fun _ => rfl
    | items => exact natural_ask Spec.natural_items fun _ => rfl
    | get => exact natural_ask (Spec.natural_get _) fun _ => rfl
    | index => exact natural_ask (Spec.natural_index _) fun _ => rfl
    | replace => exact natural_giving (l := [_]) (Spec.natural_replaceGet _ _) fun _ => rfl
    | set => exact natural_giving (l := [_]) (Spec.natural_set _ _) fun _ => rfl
    | pushFront => exact natural_giving (l := [_]) (Spec.natural_pushFront _) fun _ => rfl
    | pushBack => exact natural_giving (l := [_]) (Spec.natural_pushBack _) fun _ => rfl
    | popFront => exact natural_ask Spec.natural_popFront? fun _ => rfl
    | popBack => exact natural_ask Spec.natural_popBack? fun _ => rfl
    | dropLeft => exact natural_logged (Spec.natural_dropLeftSeq _)
    | dropRight => exact natural_logged (Spec.natural_dropRightSeq _)
    | clear => exact natural_logged Spec.natural_clearSeq
    | insert => exact natural_giving (l := [_]) (Spec.natural_insert _ _) fun _ => rfl
    | insertOrdered hs => exact natural_giving (l := [_]) (Spec.natural_insertOrdered hs _) fun _ => rfl
    | insertFrom =>
      dsimp only [specMachine]
      refine natural_guarded (fun _ => by simp) rfl ?_
      exact natural_logged (Spec.natural_insertFromOrExtend _ _ _)
    | remove => exact natural_ask (Spec.natural_remove _) fun _ => rfl
    | extend => exact natural_logged (Spec.natural_extend _)
    | next => exact natural_ask Spec.natural_popFront? fun _ => rfl
    | nextBack => exact natural_ask Spec.natural_popBack? fun _ => rfl
    | sizeHint => exact natural_ask Spec.natural_sizeHint fun _ => rfl
    | mutate hh => exact natural_ask (Spec.natural_mutate hh) fun _ => rfl
    | write =>
      dsimp only [specMachine]
      refine natural_guarded (fun _ => by simp) rfl ?_
      exact natural_ask (Spec.natural_write _) fun n => by simp [Res.map, List.map_drop]
    | read => exact natural_ask (Spec.natural_read _) fun _ => rfl
    | slice hk =>
      dsimp only [specMachine]
      refine natural_guarded (fun _ => by simp) rfl ?_
      exact natural_slice _ _ _ hk
  fork := by
    rintro k _ rfl
    cases k with
    | fromFront n => exact natural_forking (Spec.natural_fromFront n)
    | fromBack n => exact natural_forking (Spec.natural_fromBack n)
    | drainFrom => exact natural_forking Spec.natural_drainFrom
    | splitOff i => exact natural_forking (Spec.natural_splitOff i)
    | clone => exact natural_some (Spec.natural_clone hc)
    | toOwned =>
      dsimp only [specMachine]
      refine natural_guarded (fun _ => by simp) rfl ?_
      exact natural_some (Spec.natural_cloneWithin hc _ _ _)
  bin := by
    rintro k _ rfl
    cases k with
    | append => exact natural_both Spec.natural_append
    | drainFromFront n => exact natural_both (Spec.natural_drainFromFront n)
    | drainFromBack n => exact natural_both (Spec.natural_drainFromBack n)
  dtor := Spec.natural_dropSeq
  born := by
    rintro k _ d rfl
    cases k with
    | clone => exact Spec.bornOf_map hc d
    | toOwned => exact Spec.bornWithin_map hc _ _ _ d
    | _ => rfl

/-- C110 for `RingBuffer` and its slices. -/
theorem C110_items_never_show {E : Env} {N : Nat} (hN : 0 < N) (hW : 2 * N < E.W) {f : A → B} {dp : A → Bool} {dp' : B → Bool} {cl : A → Option A}
    {cl' : B → Option B} (hd : ∀ a, dp' (f a) = dp a) (hc : ∀ a, cl' (f a) = (cl a).map f) {prog : List (Op (Ctor A) (Un A) Fork Bin)}
    {prog' : List (Op (Ctor B) (Un B) Fork Bin)} (h : Images f prog prog') :
    RunsImage f (List.map f) (View E N) (View E N) ((machine E N dp cl).run prog World.empty) ((machine E N dp' cl').run prog' World.empty) := by
  obtain rfl : dp = dp' ∘ f := funext fun a => (hd a).symm
  exact (machineNat hc).runs (machineRelView hN hW) (machineRelView hN hW) h

/-- C110: two programs which differ in their items only (they become the same when the items are erased), whatever the types of the items, take
the same course, if cloning and dropping items does not panic. -/
theorem C110_same_course {E : Env} {N : Nat} (hN : 0 < N) (hW : 2 * N < E.W) {cl : A → Option A} {cl' : B → Option B} (hc : ∀ a, (cl a).isSome = true) (hc' : ∀ b, (cl' b).isSome = true)
    {prog : List (Op (Ctor A) (Un A) Fork Bin)} {prog' : List (Op (Ctor B) (Un B) Fork Bin)} {erased : List (Op (Ctor Unit) (Un Unit) Fork Bin)}
    (h : Images (fun _ => ()) prog erased) (h' : Images (fun _ => ()) prog' erased) :
    SameCourse ((machine E N (fun _ => false) cl).run prog World.empty) ((machine E N (fun _ => false) cl').run prog' World.empty) :=
  (C110_items_never_show hN hW (dp' := fun _ => false) (cl' := some) (fun _ => rfl) (clone_to_unit hc) h).same_course
    (C110_items_never_show hN hW (dp' := fun _ => false) (cl' := some) (fun _ => rfl) (clone_to_unit hc') h')

end Ring

namespace Inline
variable {A B : Type}

/-- The same constructor with the items replaced. -/
inductive Ctor.Image (f : A → B) : Ctor A → Ctor B → Prop
  | new {k k'} : Image f (.new k) (.new k')
  | fromIter {k k' it} : Image f (.fromIter k it) (.fromIter k' (it.map (Ev.map f)))

/-- The same call with the items replaced.  A client's own code must write the replaced items when it is given the replaced items. -/
inductive Un.Image (f : A → B) : Un A → Un B → Prop
  | len : Image f .len .len
  | isEmpty : Image f .isEmpty .isEmpty
  | isFull : Image f .isFull .isFull
  | items : Image f .items .items
  | index {i} : Image f (.index i) (.index i)
  | get {i} : Image f (.get i) (.get i)
  | push {v} : Image f (.push v) (.push (f v))
  | pop : Image f .pop .pop
  | insert {i v} : Image f (.insert i v) (.insert i (f v))
  | remove {i} : Image f (.remove i) (.remove i)
  | set {i v} : Image f (.set i v) (.set i (f v))
  | clear : Image f .clear .clear
  | extend {it} : Image f (.extend it) (.extend (it.map (Ev.map f)))
  | next : Image f .next .next
  | nextBack : Image f .nextBack .nextBack
  | sizeHint : Image f .sizeHint .sizeHint
  | mutate {h h'} : (∀ l, h' (l.map f) = (h l).map f) → Image f (.mutate h) (.mutate h')
  | moveTo {k k'} : Image f (.moveTo k) (.moveTo k')

/-- The same call; the new array may lie somewhere else. -/
inductive Fork.Image : Fork → Fork → Prop
  | splitOff {k k' i} : Image (.splitOff k i) (.splitOff k' i)
  | clone {k k'} : Image (.clone k) (.clone k')

/-- The same program with the items replaced by `f` of them. -/
abbrev Images (f : A → B) := Pairwise2 (Op.Image (Ctor.Image f) (Un.Image f) Fork.Image (Eq (α := Empty)))

theorem machineNat {N : Nat} {ok : Prop} [Decidable ok] {f : A → B} {dp : B → Bool} {cl : A → Option A} {cl' : B → Option B}
    (hc : ∀ a, cl' (f a) = (cl a).map f) :
    MachineNat f (List.map f) (Ctor.Image f) (Un.Image f) Fork.Image Eq (specMachine (dp ∘ f) cl ok N) (specMachine dp cl' ok N) where
  ctor := by
    rintro _ _ (_ | _)
    · intro l; simp only [specMachine]; split <;> rfl
    · intro l
      simp only [specMachine, specFromIter]
      split
      · exact Spec.natural_fromIter _ l
      · simp only [owned_map, List.any_map]; split <;> simp [Out.image]
  un := by
    intro _ _ h
    cases h with
    | len => exact natural_ask Spec.natural_len fun _ => rfl
    | isEmpty => exact natural_ask Spec.natural_isEmpty fun _ => rfl
    | isFull => exact natural_ask Spec.natural_isFull fun _ => rfl
    | items => exact natural_ask Spec.natural_items fun _ => rfl
    | index => exact natural_ask (Spec.natural_index _) fun _ => rfl
    | get => exact natural_ask (Spec.natural_get _) fun _ => rfl
    | push => exact natural_giving (l := [_]) (Spec.natural_pushBack _) fun _ => rfl
    | pop => exact natural_ask Spec.natural_popBack? fun _ => rfl
    | insert => exact natural_giving (l := [_]) (Spec.natural_insert _ _) fun _ => rfl
    | remove => exact natural_ask (Spec.natural_remove? _) fun _ => rfl
    | set => exact natural_giving (l := [_]) (Spec.natural_set _ _) fun _ => rfl
    | clear => exact natural_logged Spec.natural_clear
    | extend => exact natural_logged (Spec.natural_extend _)
    | next => exact natural_ask Spec.natural_popFront? fun _ => rfl
    | nextBack => exact natural_ask Spec.natural_popBack? fun _ => rfl
    | sizeHint => exact natural_ask Spec.natural_sizeHint fun _ => rfl
    | mutate hh => exact natural_ask (Spec.natural_mutate hh) fun _ => rfl
    | moveTo => intro s; rfl
  fork := by
    rintro _ _ (_ | _)
    · exact natural_forking (Spec.natural_splitOff _)
    · exact natural_some (Spec.natural_cloneLeaky hc)
  bin k := k.elim
  dtor := Spec.natural_drop
  born := by
    rintro _ _ d (_ | _)
    · rfl
    · exact Spec.bornOf_map hc d

/-- C110 for `InlineArray`: neither the items nor their type nor the host type show, as long as the capacity is the same and both arrays can be
constructed. -/
theorem C110_items_never_show [DecidableEq A] [DecidableEq B] {E : Env} {L : Layout A} {L' : Layout B} (hv : L.Valid E) (hv' : L'.Valid E)
    (hcap : cap E L = cap E L') (hn : ∃ s, new E L 0 () = .ok s ()) (hn' : ∃ s, new E L' 0 () = .ok s ()) {f : A → B} {dp : A → Bool}
    {dp' : B → Bool} {cl : A → Option A} {cl' : B → Option B} (hd : ∀ a, dp' (f a) = dp a) (hc : ∀ a, cl' (f a) = (cl a).map f)
    {prog : List (Op (Ctor A) (Un A) Fork Empty)} {prog' : List (Op (Ctor B) (Un B) Fork Empty)} (h : Images f prog prog') :
    RunsImage f (List.map f) (View E L) (View E L') ((machine E L dp cl).run prog World.empty) ((machine E L' dp' cl').run prog' World.empty) := by
  obtain rfl : dp = dp' ∘ f := funext fun a => (hd a).symm
  have ha : Accepted E L := by
    apply Classical.byContradiction
    intro ha
    obtain ⟨s, hs⟩ := hn
    rw [new_panic ha] at hs; cases hs
  have ha' : Accepted E L' := by
    apply Classical.byContradiction
    intro ha'
    obtain ⟨s, hs⟩ := hn'
    rw [new_panic ha'] at hs; cases hs
  have hm := machineRel (dp := dp') (cl := cl') hv'
  rw [← hcap, ← specMachine_congr (iff_of_true ha ha')] at hm
  rcases (machineNat hc).runs (machineRel hv) hm h with ⟨os, w, w', h1, h2, h3, h4, h5, h6⟩ | h0
  · exact .inl ⟨os, w, w', h1, h2, h3, h4, h5, fun i => (h6 i).imp id
      fun ⟨c, c', d, e1, e2, e3, e4⟩ => ⟨c, c', d, e1, e2, e3.view hv, e4.view hv'⟩⟩
  · exact .inr h0

/-- C110: two programs which differ in their items only (they become the same when the items are erased), whatever the types of the items, take
the same course, if cloning and dropping items does not panic, the capacity is the same and both arrays can be constructed. -/
theorem C110_same_course [DecidableEq A] [DecidableEq B] {E : Env} {L : Layout A} {L' : Layout B} (hv : L.Valid E) (hv' : L'.Valid E)
    (hcap : cap E L = cap E L') (hn : ∃ s, new E L 0 () = .ok s ()) (hn' : ∃ s, new E L' 0 () = .ok s ()) {cl : A → Option A} {cl' : B → Option B}
    (hc : ∀ a, (cl a).isSome = true) (hc' : ∀ b, (cl' b).isSome = true) {prog : List (Op (Ctor A) (Un A) Fork Empty)}
    {prog' : List (Op (Ctor B) (Un B) Fork Empty)} {erased : List (Op (Ctor Unit) (Un Unit) Fork Empty)} (h : Images (fun _ => ()) prog erased)
    (h' : Images (fun _ => ()) prog' erased) :
    SameCourse ((machine E L (fun _ => false) cl).run prog World.empty) ((machine E L' (fun _ => false) cl').run prog' World.empty) := by
  have acc : ∀ {A : Type} [DecidableEq A] {L : Layout A}, (∃ s, new E L 0 () = .ok s ()) → Accepted E L := fun ⟨s, hs⟩ => by
    apply Classical.byContradiction
    intro ha
    rw [new_panic ha] at hs; cases hs
  have hm := machineRel (dp := fun _ => false) (cl := cl') hv'
  rw [← hcap, ← specMachine_congr (iff_of_true (acc hn) (acc hn'))] at hm
  exact (machineNat (dp := fun _ => false) (cl' := some) (clone_to_unit hc)).same_course (machineNat (dp := fun _ => false) (clone_to_unit hc')) (machineRel hv) hm h h'

end Inline

/-- The map with every element replaced. -/
def SMap.image {A B : Type} (f : A → B) (m : SMap A) : SMap B := fun i => (m i).map f

namespace MSpec
open SMap
variable {A B : Type} {f : A → B} {dp : B → Bool} {N : Nat}

theorem image_upd (m : SMap A) (i : Nat) (o : Option A) : (m.image f).upd i (o.map f) = (m.upd i o).image f := by
  funext j; simp only [SMap.upd, image]; split <;> rfl
theorem image_upd_some (m : SMap A) (i : Nat) (v : A) : (m.image f).upd i (some (f v)) = (m.upd i (some v)).image f := image_upd m i (some v)
theorem image_upd_none (m : SMap A) (i : Nat) : (m.image f).upd i none = (m.upd i none).image f := image_upd m i none
theorem image_empty : (SMap.empty : SMap A).image f = SMap.empty := rfl
theorem image_keys (m : SMap A) : (m.image f).keys N = m.keys N := by simp [keys, image]
theorem image_vals (m : SMap A) : (m.image f).vals N = (m.vals N).map f := by
  simp only [vals, List.map_filterMap]; rfl
theorem image_pairs (m : SMap A) : (m.image f).pairs N = (m.pairs N).map fun p => (p.1, f p.2) := by
  simp only [pairs, List.map_filterMap, image, Option.map_map]; rfl
theorem image_slots (m : SMap A) : (m.image f).slots N = (m.slots N).map (Option.map f) := by simp [slots, image]
theorem image_first (m : SMap A) : (m.image f).first N = m.first N := by simp [first, image_keys]
theorem image_overwrite (is : List Nat) (vs : List A) (m : SMap A) : overwrite is (vs.map f) (m.image f) = (overwrite is vs m).image f := by
  induction is generalizing vs m with
  | nil => cases vs <;> rfl
  | cons i is ih =>
    cases vs with
    | nil => rfl
    | cons v vs => simp only [List.map_cons, overwrite, image_upd_some, ih]

theorem natural_len : Natural id (image f) (len N : M (SMap A) Nat) (len N) := by intro m; simp [len, Out.image, image_keys]
theorem natural_isEmpty : Natural id (image f) (isEmpty N : M (SMap A) Bool) (isEmpty N) := by intro m; simp [isEmpty, Out.image, image_keys]
theorem natural_isFull : Natural id (image f) (isFull N : M (SMap A) Bool) (isFull N) := by intro m; simp [isFull, Out.image, image_keys]
theorem natural_insert (i : Nat) (v : A) : Natural (Option.map f) (image f) (insert N i v) (insert N i (f v)) := by
  intro m; simp only [insert, image_upd_some]; split <;> rfl
theorem natural_remove (i : Nat) : Natural (Option.map f) (image f) (remove N i) (remove N i) := by
  intro m; simp only [remove, image_upd_none]; split <;> rfl
theorem natural_pop : Natural (Option.map f) (image f) (pop N) (pop N) := by
  intro m; simp only [pop, image_first, image_upd_none]; cases m.first N <;> rfl
theorem natural_get (i : Nat) : Natural (Option.map f) (image f) (get i) (get i) := by intro m; rfl
theorem natural_index (i : Nat) : Natural f (image f) (index i) (index i) := by
  intro m; simp only [index, show (m.image f) i = (m i).map f from rfl]; cases m i <;> rfl
theorem natural_replaceGet (i : Nat) (v : A) : Natural f (image f) (replaceGet N i v) (replaceGet N i (f v)) := by
  intro m; simp only [replaceGet, image_upd_some, show (m.image f) i = (m i).map f from rfl]; split
  · cases m i <;> rfl
  · rfl
theorem natural_setIndex (i : Nat) (v : A) : Natural f (image f) (setIndex N i v) (setIndex N i (f v)) := by
  intro m; simp only [setIndex, image_upd_some, show (m.image f) i = (m i).map f from rfl]; split
  · cases m i <;> rfl
  · rfl
theorem natural_firstIndex : Natural id (image f) (firstIndex N : M (SMap A) _) (firstIndex N) := by intro m; simp [firstIndex, Out.image, image_first]
theorem natural_indices : Natural id (image f) (indices N : M (SMap A) _) (indices N) := by intro m; simp [indices, Out.image, image_keys]
theorem natural_items : Natural (List.map f) (image f) (items N) (items N) := by intro m; simp [items, Out.image, image_vals]
theorem natural_entries : Natural (List.map fun p => (p.1, f p.2)) (image f) (entries N) (entries N) := by
  intro m; simp [entries, Out.image, image_pairs]
theorem natural_optionItems : Natural (List.map (Option.map f)) (image f) (optionItems N) (optionItems N) := by
  intro m; simp [optionItems, Out.image, image_slots]
theorem natural_mutate {h : List A → List A} {h' : List B → List B} (hh : ∀ l, h' (l.map f) = (h l).map f) :
    Natural id (image f) (mutate N h) (mutate N h') := by
  intro m; simp only [mutate, image_vals, hh, List.length_map, image_keys, image_overwrite, Out.image]; split <;> rfl

theorem panicDropping_image {α β : Type} {k : α → β} (d : List A) (m : SMap A) (log : List A) :
    panicDropping dp (d.map f) (m.image f) (log.map f) = (panicDropping (dp ∘ f) d m log).image k (Prod.map (image f) (List.map f)) := by
  simp only [panicDropping, List.any_map]; split <;> simp [Out.image]
theorem natural_drop : Natural id (Prod.map (image f) (List.map f)) (drop N (dp ∘ f)) (drop N dp) := by
  rintro ⟨m, log⟩
  simp only [drop, Prod.map, image_vals, List.any_map, List.findIdx_map]; split <;> simp [Out.image, List.map_take]
theorem natural_clone {cl : A → Option A} {cl' : B → Option B} (hc : ∀ a, cl' (f a) = (cl a).map f) :
    Natural (image f) (Prod.map (image f) (List.map f)) (clone N (dp ∘ f) cl) (clone N dp cl') := by
  rintro ⟨m, log⟩
  simp only [clone, Prod.map, image_vals, Spec.bornOf_map hc, List.length_map, panicDropping_image (k := image f)]
  split
  · simp only [Out.image, Prod.map]
    congr 1
    funext i
    simp only [image]
    cases m i <;> simp [hc]
  · rfl

theorem natural_unit (i : Nat) (v : A) : Natural (image f) (List.map f) (unit N (dp ∘ f) i v) (unit N dp i (f v)) := by
  intro log
  simp only [unit, ← image_empty (f := f), image_upd_some, Function.comp]
  repeat' split
  all_goals simp [Out.image]
theorem natural_pair (i : Nat) (v : A) (j : Nat) (w : A) : Natural (image f) (List.map f) (pair N (dp ∘ f) i v j w) (pair N dp i (f v) j (f w)) := by
  intro log
  simp only [pair, ← image_empty (f := f), image_upd_some, Function.comp]
  repeat' split
  all_goals simp [Out.image]

theorem natural_fill (it : It (Option A)) (i : Nat) :
    Natural id (Prod.map (image f) (List.map f)) (fill N (dp ∘ f) i it) (fill N dp i (it.map (Ev.map (Option.map f)))) := by
  have ho : ∀ it : It (Option A), owned (it.map (Ev.map (Option.map f))) = (owned it).map f := by
    intro it
    simp only [owned, owned_map, List.filterMap_map, List.map_filterMap]
    rfl
  rintro ⟨m, log⟩
  induction it generalizing i m with
  | nil => rfl
  | cons e r ih =>
    cases e with
    | panic => simp only [List.map_cons, Ev.map, fill, Prod.map, ho]; exact panicDropping_image _ _ _
    | item o =>
      cases o with
      | none => simp only [List.map_cons, Ev.map, fill, Option.map_none]; exact ih _ _
      | some v =>
        simp only [List.map_cons, Ev.map, fill, Option.map_some, Prod.map, ho]
        split
        · rw [image_upd_some]; exact ih _ _
        · exact panicDropping_image (v :: owned r) _ _

theorem natural_fromIter (it : It (Option A)) :
    Natural (image f) (List.map f) (fromIter N (dp ∘ f) it) (fromIter N dp (it.map (Ev.map (Option.map f)))) := by
  intro log
  have := natural_fill (N := N) (dp := dp) (f := f) it 0 (SMap.empty, log)
  simp only [Prod.map, image_empty] at this
  simp only [fromIter, this]
  cases fill N (dp ∘ f) 0 it (SMap.empty, log) <;> simp only [Out.image, Prod.map, image_vals, List.any_map]
  split <;> simp

theorem natural_eq {e : A → A → Bool} {e' : B → B → Bool} (he : ∀ a b, e' (f a) (f b) = e a b) :
    Natural id (Prod.map (image f) (image f)) (eq N e) (eq N e') := by
  rintro ⟨m, n⟩
  simp only [eq, Out.image, Prod.map, id]
  congr 2
  funext i
  simp only [image]
  cases m i <;> cases n i <;> simp [sameOpt, he]

end MSpec

namespace Sparse
variable {A B : Type}

/-- The same constructor with the items replaced. -/
inductive Ctor.Image (f : A → B) : Ctor A → Ctor B → Prop
  | new : Image f .new .new
  | unit {i v} : Image f (.unit i v) (.unit i (f v))
  | pair {i v j w} : Image f (.pair i v j w) (.pair i (f v) j (f w))
  | fromIter {it} : Image f (.fromIter it) (.fromIter (it.map (Ev.map (Option.map f))))

/-- The same call with the items replaced.  A client's own code must write the replaced items when it is given the replaced items. -/
inductive Un.Image (f : A → B) : Un A → Un B → Prop
  | len : Image f .len .len
  | isEmpty : Image f .isEmpty .isEmpty
  | isFull : Image f .isFull .isFull
  | insert {i v} : Image f (.insert i v) (.insert i (f v))
  | remove {i} : Image f (.remove i) (.remove i)
  | pop : Image f .pop .pop
  | get {i} : Image f (.get i) (.get i)
  | index {i} : Image f (.index i) (.index i)
  | replace {i v} : Image f (.replace i v) (.replace i (f v))
  | set {i v} : Image f (.set i v) (.set i (f v))
  | firstIndex : Image f .firstIndex .firstIndex
  | indices : Image f .indices .indices
  | items : Image f .items .items
  | entries : Image f .entries .entries
  | optionItems : Image f .optionItems .optionItems
  | mutate {h h'} : (∀ l, h' (l.map f) = (h l).map f) → Image f (.mutate h) (.mutate h')
  | mutateOpt {h h'} : (∀ l, h' (l.map f) = (h l).map f) → Image f (.mutateOpt h) (.mutateOpt h')
  | next : Image f .next .next
  | sizeHint : Image f .sizeHint .sizeHint

/-- The same comparison: the replaced items are equal exactly if the items are. -/
inductive Bin.Image (f : A → B) : Bin A → Bin B → Prop
  | eq {e e'} : (∀ a b, e' (f a) (f b) = e a b) → Image f (.eq e) (.eq e')

/-- The same program with the items replaced by `f` of them. -/
abbrev Images (f : A → B) := Pairwise2 (Op.Image (Ctor.Image f) (Un.Image f) (Eq (α := Fork)) (Bin.Image f))

theorem machineNat {N : Nat} {f : A → B} {dp : B → Bool} {cl : A → Option A} {cl' : B → Option B} (hc : ∀ a, cl' (f a) = (cl a).map f) :
    MachineNat f (SMap.image f) (Ctor.Image f) (Un.Image f) Eq (Bin.Image f) (specMachine N (dp ∘ f) cl) (specMachine N dp cl') where
  ctor := by
    rintro _ _ (_ | _ | _ | _)
    · intro l; rfl
    · exact MSpec.natural_unit _ _
    · exact MSpec.natural_pair _ _ _ _
    · exact MSpec.natural_fromIter _
  un := by
    intro _ _ h
    cases h with
    | len => exact natural_ask MSpec.natural_len fun _ => rfl
    | isEmpty => exact natural_ask MSpec.natural_isEmpty fun _ => rfl
    | isFull => exact natural_ask MSpec.natural_isFull fun _ => rfl
    | insert => exact natural_giving (l := [_]) (MSpec.natural_insert _ _) fun _ => rfl
    | remove => exact natural_ask (MSpec.natural_remove _) fun _ => rfl
    | pop => exact natural_ask MSpec.natural_pop fun _ => rfl
    | get => exact natural_ask (MSpec.natural_get _) fun _ => rfl
    | index => exact natural_ask (MSpec.natural_index _) fun _ => rfl
    | replace => exact natural_giving (l := [_]) (MSpec.natural_replaceGet _ _) fun _ => rfl
    | set => exact natural_giving (l := [_]) (MSpec.natural_setIndex _ _) fun _ => rfl
    | firstIndex => exact natural_ask MSpec.natural_firstIndex fun _ => rfl
    | indices => exact natural_ask MSpec.natural_indices fun _ => rfl
    | items => exact natural_ask MSpec.natural_items fun _ => rfl
    | entries => exact natural_ask MSpec.natural_entries fun _ => rfl
    | optionItems => exact natural_ask MSpec.natural_optionItems fun _ => rfl
    | mutate hh => exact natural_ask (MSpec.natural_mutate hh) fun _ => rfl
    | mutateOpt hh => exact natural_ask (MSpec.natural_mutate hh) fun _ => rfl
    | next => exact natural_ask MSpec.natural_pop fun _ => rfl
    | sizeHint =>
      refine natural_ask (k := id) (fun m => ?_) fun _ => rfl
      simp [M.bind_run, MSpec.len, Out.image, MSpec.image_keys]
  fork := by
    rintro k _ rfl
    cases k
    exact natural_some (MSpec.natural_clone hc)
  bin := by
    rintro _ _ ⟨he⟩
    rintro ⟨s, log⟩
    simp only [specMachine, askTwo, M.bind_run, M.onFst_run, M.pure_run, Prod.map_fst, Prod.map_snd]
    rw [MSpec.natural_eq he]
    cases MSpec.eq N _ s <;> simp [Out.image, Out.mapState, Res.map]
  dtor := MSpec.natural_drop
  born := by
    rintro k _ d rfl
    cases k
    simp only [specMachine, MSpec.image_vals, Spec.bornOf_map hc]

/-- C110 for `SparseChunk`. -/
theorem C110_items_never_show {E : Env} {N : Nat} (hW : N < E.W) {f : A → B} {dp : A → Bool} {dp' : B → Bool} {cl : A → Option A}
    {cl' : B → Option B} (hd : ∀ a, dp' (f a) = dp a) (hc : ∀ a, cl' (f a) = (cl a).map f) {prog : List (Op (Ctor A) (Un A) Fork (Bin A))}
    {prog' : List (Op (Ctor B) (Un B) Fork (Bin B))} (h : Images f prog prog') :
    RunsImage f (SMap.image f) (View N) (View N) ((machine E N dp cl).run prog World.empty) ((machine E N dp' cl').run prog' World.empty) := by
  obtain rfl : dp = dp' ∘ f := funext fun a => (hd a).symm
  exact (machineNat hc).runs (machineRelView hW) (machineRelView hW) h

/-- C110: two programs which differ in their items only (they become the same when the items are erased), whatever the types of the items, take
the same course, if cloning and dropping items does not panic. -/
theorem C110_same_course {E : Env} {N : Nat} (hW : N < E.W) {cl : A → Option A} {cl' : B → Option B} (hc : ∀ a, (cl a).isSome = true) (hc' : ∀ b, (cl' b).isSome = true)
    {prog : List (Op (Ctor A) (Un A) Fork (Bin A))} {prog' : List (Op (Ctor B) (Un B) Fork (Bin B))} {erased : List (Op (Ctor Unit) (Un Unit) Fork (Bin Unit))}
    (h : Images (fun _ => ()) prog erased) (h' : Images (fun _ => ()) prog' erased) :
    SameCourse ((machine E N (fun _ => false) cl).run prog World.empty) ((machine E N (fun _ => false) cl').run prog' World.empty) :=
  (C110_items_never_show hW (dp' := fun _ => false) (cl' := some) (fun _ => rfl) (clone_to_unit hc) h).same_course
    (C110_items_never_show hW (dp' := fun _ => false) (cl' := some) (fun _ => rfl) (clone_to_unit hc') h')

end Sparse

/-! ### C110 is not vacuous -/

/-- Replace numbers by whether they are even. -/
def isEven (n : Nat) : Bool := n % 2 == 0

/-- C110 is not vacuous: a program on a chunk of numbers that clones, overflows and is written to, and the same program on
booleans; and what the two show. -/
example :
    Chunk.Images isEven
      [.ctor (.pair 10 21), .fork 0 .clone, .un 1 .popFront, .un 0 (.extend [.item 4, .item 5]), .un 0 (.mutate List.reverse), .un 0 .asSlice, .bin 1 0 .append]
      [.ctor (.pair true false), .fork 0 .clone, .un 1 .popFront, .un 0 (.extend [.item true, .item false]), .un 0 (.mutate List.reverse), .un 0 .asSlice,
        .bin 1 0 .append] ∧
    ((Chunk.machine Chunk.dbg64 3 (fun _ => false) some).run
      [.ctor (.pair 10 21), .fork 0 .clone, .un 1 .popFront, .un 0 (.extend [.item 4, .item 5]), .un 0 (.mutate List.reverse), .un 0 .asSlice, .bin 1 0 .append]
      World.empty).seen =
      some [.handle 0, .handle 1, .res (.val 10), .panicked, .res .unit, .res (.refs [4, 21, 10]), .panicked] ∧
    ((Chunk.machine Chunk.dbg64 3 (fun _ => false) some).run
      [.ctor (.pair true false), .fork 0 .clone, .un 1 .popFront, .un 0 (.extend [.item true, .item false]), .un 0 (.mutate List.reverse), .un 0 .asSlice,
        .bin 1 0 .append] World.empty).seen =
      some [.handle 0, .handle 1, .res (.val true), .panicked, .res .unit, .res (.refs [true, false, true]), .panicked] :=
  ⟨.cons (.ctor .pair) (.cons (.fork rfl) (.cons (.un .popFront) (.cons (.un .extend) (.cons (.un (.mutate fun l => by simp)) (.cons (.un .asSlice)
    (.cons (.bin rfl) .nil)))))), by decide +kernel, by decide +kernel⟩

/-- C110 is not vacuous: a program on a ring buffer with a slice. -/
example : Ring.Images isEven
    [.ctor (.pair 10 21), .un 0 (.pushFront 7), .un 0 (.slice (.included 1) .unbounded [.right 1] (.replace 0 8)), .un 0 .items]
    [.ctor (.pair true false), .un 0 (.pushFront false), .un 0 (.slice (.included 1) .unbounded [.right 1] (.replace 0 true)), .un 0 .items] ∧
    ((Ring.machine Chunk.dbg64 3 (fun _ => false) some).run
      [.ctor (.pair 10 21), .un 0 (.pushFront 7), .un 0 (.slice (.included 1) .unbounded [.right 1] (.replace 0 8)), .un 0 .items] World.empty).seen =
      some [.handle 0, .res .unit, .res (.val 21), .res (.refs [7, 10, 8])] :=
  ⟨.cons (.ctor .pair) (.cons (.un .pushFront) (.cons (.un (.slice .replace)) (.cons (.un .items) .nil))), by decide +kernel⟩

/-- C110 is not vacuous: a program on a sparse chunk. -/
example : Sparse.Images isEven
    [.ctor (.unit 2 10), .un 0 (.insert 0 7), .un 0 .entries, .fork 0 .clone, .bin 0 1 (.eq fun a b => isEven a == isEven b)]
    [.ctor (.unit 2 true), .un 0 (.insert 0 false), .un 0 .entries, .fork 0 .clone, .bin 0 1 (.eq fun a b => a == b)] ∧
    ((Sparse.machine Chunk.dbg64 3 (fun _ => false) some).run
      [.ctor (.unit 2 10), .un 0 (.insert 0 7), .un 0 .entries, .fork 0 .clone, .bin 0 1 (.eq fun a b => isEven a == isEven b)] World.empty).seen =
      some [.handle 0, .res (.opt none), .res (.entries [(0, 7), (2, 10)]), .handle 1, .res (.bool true)] :=
  ⟨.cons (.ctor .unit) (.cons (.un .insert) (.cons (.un .entries) (.cons (.fork rfl) (.cons (.bin (.eq fun _ _ => rfl)) .nil)))), by decide +kernel⟩

/-- C110 is not vacuous: a program on an inline array. -/
example : Inline.Images (fun n => n + 1) [.ctor (.fromIter 0 [.item 10, .item 20]), .un 0 (.insert 1 5), .un 0 .items]
      [.ctor (.fromIter 3 [.item 11, .item 21]), .un 0 (.insert 1 6), .un 0 .items] ∧
    ((Inline.machine Chunk.dbg64 Inline.words (fun _ => false) some).run
      [.ctor (.fromIter 0 [.item 10, .item 20]), .un 0 (.insert 1 5), .un 0 .items] World.empty).seen =
      some [.handle 0, .res .unit, .res (.refs [10, 5, 20])] ∧ (∃ s, Inline.new Chunk.dbg64 Inline.words 0 () = .ok s ()) :=
  ⟨.cons (.ctor .fromIter) (.cons (.un .insert) (.cons (.un .items) .nil)), by decide +kernel, ⟨_, rfl⟩⟩

end Verif
