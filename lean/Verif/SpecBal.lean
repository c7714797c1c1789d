import Verif.Driver
/-
Accounting of elements by the list specification: every operation of `Verif.Spec` conserves elements.
-/
namespace Verif
namespace Spec
variable {A : Type} [DecidableEq A] {N : Nat} {dp : A → Bool}

theorem count_take_drop (l : List A) (i : Nat) (a : A) : (l.take i).count a + (l.drop i).count a = l.count a := by
  rw [← List.count_append, List.take_append_drop]

theorem count_get (l : List A) (i : Nat) (x a : A) (h : l[i]? = some x) :
    (l.take i).count a + ([x] : List A).count a + (l.drop (i + 1)).count a = l.count a := by
  obtain ⟨hi, rfl⟩ := List.getElem?_eq_some_iff.1 h
  have : l = l.take i ++ [l[i]] ++ l.drop (i + 1) := by simp
  conv => rhs; rw [this]
  simp only [List.count_append]

theorem count_dropLast (l : List A) (x a : A) (h : l.getLast? = some x) :
    l.dropLast.count a + ([x] : List A).count a = l.count a := by
  obtain ⟨k, rfl⟩ := List.getLast?_eq_some_iff.1 h
  simp only [List.dropLast_concat, List.count_append]

theorem count_set (l : List A) (i : Nat) (x v a : A) (h : l[i]? = some x) :
    (l.set i v).count a + ([x] : List A).count a = l.count a + ([v] : List A).count a := by
  have h1 := count_get l i x a h
  obtain ⟨hi, rfl⟩ := List.getElem?_eq_some_iff.1 h
  rw [List.set_eq_take_append_cons_drop, if_pos hi]
  rw [show v :: l.drop (i+1) = [v] ++ l.drop (i+1) from rfl]
  simp only [List.count_append] at *
  omega

/-- Turn a count equation into linear arithmetic. -/
macro "cnt" : tactic => `(tactic| (
  simp only [List.count_append, List.count_nil, List.count_cons, List.count_singleton, Res.outs, Option.toList, Nat.add_zero, Nat.zero_add] at *
  try omega))

section
variable {l : List A}
theorem pushFront_bal (v : A) : Sat (pushFront N v l)
    (fun _ l' => Res.performed (.unit : Res A) [v] = [v] ∧ ∀ a, ([v] ++ l).count a = ((.unit : Res A).outs ++ l').count a) (fun l' => l' = l) True := by
  unfold pushFront; split
  · exact ⟨rfl, fun a => by cnt⟩
  · rfl
theorem pushBack_bal (v : A) : Sat (pushBack N v l)
    (fun _ l' => Res.performed (.unit : Res A) [v] = [v] ∧ ∀ a, ([v] ++ l).count a = ((.unit : Res A).outs ++ l').count a) (fun l' => l' = l) True := by
  unfold pushBack; split
  · exact ⟨rfl, fun a => by cnt⟩
  · rfl
theorem insert_bal (i : Nat) (v : A) : Sat (insert N i v l)
    (fun _ l' => Res.performed (.unit : Res A) [v] = [v] ∧ ∀ a, ([v] ++ l).count a = ((.unit : Res A).outs ++ l').count a) (fun l' => l' = l) True := by
  unfold insert; split
  · exact ⟨rfl, fun a => by have := count_take_drop l i a; cnt⟩
  · rfl
theorem insertOrdered_bal (f : List A → A → Option (Except Nat Nat)) (v : A) : Sat (insertOrdered N f v l)
    (fun _ l' => Res.performed (.unit : Res A) [v] = [v] ∧ ∀ a, ([v] ++ l).count a = ((.unit : Res A).outs ++ l').count a) (fun l' => l' = l) True := by
  unfold insertOrdered; split
  · split
    · rfl
    all_goals exact insert_bal _ v
  · rfl
theorem set_bal (i : Nat) (v : A) : Sat (set i v l)
    (fun r l' => (Res.val r).performed [v] = [v] ∧ ∀ a, ([v] ++ l).count a = ((Res.val r).outs ++ l').count a) (fun l' => l' = l) True := by
  unfold set
  cases h : l[i]? with
  | none => rfl
  | some x => exact ⟨rfl, fun a => by have := count_set l i x v a h; cnt⟩
theorem popFront_bal : Sat (popFront l) (fun r l' => ∀ a, l.count a = ((Res.val r).outs ++ l').count a) (fun l' => l' = l) True := by
  unfold popFront; split
  · rfl
  · intro a; cnt
theorem popBack_bal : Sat (popBack l) (fun r l' => ∀ a, l.count a = ((Res.val r).outs ++ l').count a) (fun l' => l' = l) True := by
  unfold popBack; split
  · rfl
  · rename_i x h; intro a; have := count_dropLast l x a h; cnt
theorem popFront?_bal : Sat (popFront? l) (fun r l' => ∀ a, l.count a = ((Res.opt r).outs ++ l').count a) (fun l' => l' = l) True := by
  cases l with
  | nil => intro a; simp [Res.outs]
  | cons x r => intro a; simp only [List.head?_cons, List.tail_cons]; cnt
theorem popBack?_bal : Sat (popBack? l) (fun r l' => ∀ a, l.count a = ((Res.opt r).outs ++ l').count a) (fun l' => l' = l) True := by
  cases h : l.getLast? with
  | none => simp at h; subst h; intro a; simp [Res.outs]
  | some x => intro a; have := count_dropLast l x a h; simp only [h, Res.outs, Option.toList]; cnt
theorem remove_bal (i : Nat) : Sat (remove i l) (fun r l' => ∀ a, l.count a = ((Res.val r).outs ++ l').count a) (fun l' => l' = l) True := by
  unfold remove
  cases h : l[i]? with
  | none => rfl
  | some x => intro a; have := count_get l i x a h; cnt
theorem mutate_bal (f : List A → List A) (hf : ∀ l, (f l).Perm l) : Sat (mutate f l)
    (fun _ l' => ∀ a, l.count a = ((.unit : Res A).outs ++ l').count a) (fun l' => l' = l) True := by
  intro a
  simp only [Res.outs, List.nil_append]
  split
  · exact ((hf l).count_eq a).symm
  · rfl
theorem read_bal (n : Nat) : Sat (read n l) (fun r l' => ∀ a, l.count a = ((Res.read r.1 r.2).outs ++ l').count a) (fun l' => l' = l) True := by
  intro a; have := count_take_drop l n a; cnt
theorem write_bal (buf : List A) : Sat (write N buf l)
    (fun n l' => (Res.read n (buf.drop n)).performed buf = buf ∧ ∀ a, (buf ++ l).count a = ((Res.read n (buf.drop n)).outs ++ l').count a) (fun l' => l' = l) True := by
  refine ⟨rfl, fun a => ?_⟩
  have := count_take_drop buf (min buf.length (N - l.length)) a
  have e : buf.take (min buf.length (N - l.length)) = buf.take (N - l.length) := by
    rw [List.take_eq_take_iff]; omega
  rw [e] at this; cnt

theorem dropping_bal {d l l' log : List A} (g h : Bool → Prop) (hd : ∀ a, l.count a = d.count a + l'.count a)
    (hp : g true → ∀ a, dp a = false) :
    Sat (dropping dp d l l' log)
      (fun _ s => g false → ∃ leak, (h false → leak = []) ∧ ∀ a, ([] ++ l ++ log).count a = (s.1 ++ s.2 ++ leak).count a)
      (fun s => g true → ∃ leak, (h true → leak = []) ∧ ∀ a, ([] ++ l ++ log).count a = (s.1 ++ s.2 ++ leak).count a) True := by
  simp only [dropping]
  split
  · exact fun _ => ⟨[], fun _ => rfl, fun a => by have := hd a; cnt⟩
  · rename_i e
    intro hg
    have : d.countP dp = 0 := by simp [hp hg]
    omega
  · trivial

theorem dropLeft_bal (i : Nat) (log : List A) (g h : Bool → Prop) (hp : g true → ∀ a, dp a = false) : Sat (dropLeft dp i (l, log))
      (fun _ s => g false → ∃ leak, (h false → leak = []) ∧ ∀ a, ([] ++ l ++ log).count a = (s.1 ++ s.2 ++ leak).count a)
      (fun s => g true → ∃ leak, (h true → leak = []) ∧ ∀ a, ([] ++ l ++ log).count a = (s.1 ++ s.2 ++ leak).count a) True := by
  unfold dropLeft; simp only; split
  · exact dropping_bal g h (fun a => (count_take_drop l i a).symm) hp
  · exact fun _ => ⟨[], fun _ => rfl, fun a => by cnt⟩
theorem dropRight_bal (i : Nat) (log : List A) (g h : Bool → Prop) (hp : g true → ∀ a, dp a = false) : Sat (dropRight dp i (l, log))
      (fun _ s => g false → ∃ leak, (h false → leak = []) ∧ ∀ a, ([] ++ l ++ log).count a = (s.1 ++ s.2 ++ leak).count a)
      (fun s => g true → ∃ leak, (h true → leak = []) ∧ ∀ a, ([] ++ l ++ log).count a = (s.1 ++ s.2 ++ leak).count a) True := by
  unfold dropRight; simp only; split
  · exact dropping_bal g h (fun a => by rw [Nat.add_comm]; exact (count_take_drop l i a).symm) hp
  · exact fun _ => ⟨[], fun _ => rfl, fun a => by cnt⟩
theorem clear_bal (log : List A) (g h : Bool → Prop) (hp : g true → ∀ a, dp a = false) : Sat (clear dp (l, log))
      (fun _ s => g false → ∃ leak, (h false → leak = []) ∧ ∀ a, ([] ++ l ++ log).count a = (s.1 ++ s.2 ++ leak).count a)
      (fun s => g true → ∃ leak, (h true → leak = []) ∧ ∀ a, ([] ++ l ++ log).count a = (s.1 ++ s.2 ++ leak).count a) True :=
  dropping_bal g h (fun a => by simp) hp
theorem drop_bal (log : List A) (h : Bool → Prop) : Sat (drop dp (l, log))
      (fun _ s => ∃ leak, (h false → leak = []) ∧ ∀ a, (l ++ log).count a = (s.2 ++ leak).count a)
      (fun s => ∃ leak, (h true → leak = []) ∧ ∀ a, (l ++ log).count a = (s.2 ++ leak).count a) True := by
  unfold drop dropping; simp only; split
  · exact ⟨[], fun _ => rfl, fun a => by cnt⟩
  · exact ⟨[], fun _ => rfl, fun a => by cnt⟩
  · trivial

theorem extend_bal (it : It A) (l log : List A) : Sat (extend N dp it (l, log))
      (fun _ s => ∀ a, (it.owned ++ l ++ log).count a = (s.1 ++ s.2).count a)
      (fun s => ∀ a, (it.owned ++ l ++ log).count a = (s.1 ++ s.2).count a) True := by
  induction it generalizing l with
  | nil => intro a; simp [It.owned]
  | cons e r ih =>
    cases e with
    | panic =>
      simp only [extend, panicDropping]
      split
      · trivial
      · intro a; simp only [It.owned]; cnt
    | item x =>
      simp only [extend]
      split
      · refine Sat.imp (ih (l ++ [x])) ?_ ?_ id
        · intro _ s h a; have := h a; simp only [It.owned]; cnt
        · intro s h a; have := h a; simp only [It.owned]; cnt
      · simp only [panicDropping]
        split
        · trivial
        · intro a; simp only [It.owned]; cnt

theorem It.count_owned (it : It A) (n : Nat) (h : n ≤ it.items.length) (a : A) :
    it.owned.count a = (it.items.take n).count a + (It.owned (it.drop n)).count a := by
  induction it generalizing n with
  | nil => simp [It.owned, It.items]
  | cons e r ih =>
    cases n with
    | zero => simp
    | succ n =>
      cases e with
      | panic => simp [It.items] at h
      | item x =>
        simp only [It.items, List.length_cons] at h
        have := ih n (by omega)
        simp only [It.owned, It.items, List.take_succ_cons, List.drop_succ_cons]
        cnt
theorem It.count_owned_short (it : It A) (a : A) :
    it.owned.count a = it.items.count a + (It.owned (it.drop (it.items.length + 1))).count a := by
  induction it with
  | nil => simp [It.owned, It.items]
  | cons e r ih =>
    cases e with
    | panic => simp [It.owned, It.items]
    | item x =>
      simp only [It.owned, It.items, List.length_cons, List.drop_succ_cons]
      cnt
omit [DecidableEq A] in
theorem It.items_drop (it : It A) (n : Nat) (h : n ≤ it.items.length) : It.items (it.drop n) = it.items.drop n := by
  induction it generalizing n with
  | nil => simp [It.items]
  | cons e r ih =>
    cases n with
    | zero => simp
    | succ n =>
      cases e with
      | panic => simp [It.items] at h
      | item x =>
        simp only [It.items, List.length_cons] at h
        simpa [It.items] using ih n (by omega)

theorem insertFrom_bal (i n : Nat) (it : It A) (l log : List A) (g h : Bool → Prop)
    (hh : h true → n ≤ it.items.length ∧ (It.owned (it.drop n)).countP dp = 0) : Sat (insertFrom N dp i n it (l, log))
      (fun _ s => g false → ∃ leak, (h false → leak = []) ∧ ∀ a, (it.owned ++ l ++ log).count a = (s.1 ++ s.2 ++ leak).count a)
      (fun s => g true → ∃ leak, (h true → leak = []) ∧ ∀ a, (it.owned ++ l ++ log).count a = (s.1 ++ s.2 ++ leak).count a) True := by
  simp only [insertFrom]
  split
  · split
    · rename_i hn
      split
      · refine fun _ => ⟨[], fun _ => rfl, fun a => ?_⟩
        have := It.count_owned it n hn a
        have := count_take_drop l i a
        cnt
      · rename_i h1
        refine fun _ => ⟨it.items.take n ++ l, fun q => ?_, fun a => ?_⟩
        · have := (hh q).2; omega
        · have := It.count_owned it n hn a
          cnt
      · trivial
    · rename_i hn
      simp only [panicDropping]
      split
      · trivial
      · refine fun _ => ⟨it.items ++ l, fun q => absurd (hh q).1 hn, fun a => ?_⟩
        have := It.count_owned_short it a
        cnt
  · simp only [panicDropping]
    split
    · trivial
    · exact fun _ => ⟨[], fun _ => rfl, fun a => by cnt⟩

theorem fromIter_bal (it : It A) (log : List A) : Sat (fromIter N dp it log)
    (fun c log' => ∀ a, (it.owned ++ log).count a = (c ++ log').count a)
    (fun log' => ∀ a, (it.owned ++ log).count a = log'.count a) True := by
  have h := extend_bal (N := N) (dp := dp) it [] log
  unfold fromIter
  cases hx : extend N dp it ([], log) <;> rw [hx] at h <;> simp only [Sat] at h ⊢
  · intro a; have := h a; cnt
  · split
    · rename_i e; split at e <;> cases e
    · rename_i e; split at e <;> cases e
      intro a; have := h a; cnt
    · trivial
    · rename_i e; split at e <;> cases e
    · rename_i e; split at e <;> cases e

theorem collectFrom_bal (n : Nat) (it : It A) (log : List A) : Sat (collectFrom N dp n (it, log))
    (fun c s => ∀ a, (it.owned ++ log).count a = (c ++ s.2 ++ s.1.owned).count a)
    (fun s => ∀ a, (it.owned ++ log).count a = (s.2 ++ s.1.owned).count a) True := by
  have key : ∀ m, m + 1 ≤ it.items.length → ∀ a, (it.owned ++ log).count a =
      ((log ++ (it.items.drop m).take 1 ++ it.items.take m) ++ It.owned (it.drop (m + 1))).count a := by
    intro m hm a
    have h1 := It.count_owned it (m + 1) hm a
    have : it.items.take (m + 1) = it.items.take m ++ (it.items.drop m).take 1 := by
      rw [List.take_add]
    rw [this] at h1
    cnt
  unfold collectFrom
  simp only
  split
  · rename_i hn
    split
    · intro a
      have := It.count_owned it n hn a
      cnt
    · split
      · trivial
      · exact key N (by omega)
  · split
    · split
      · trivial
      · intro a
        have := It.count_owned_short it a
        cnt
    · split
      · trivial
      · exact key N (by omega)

theorem splitOff_bal (i : Nat) : Sat (splitOff i l) (fun r l' => ∀ a, l.count a = (r ++ l').count a) (fun l' => l' = l) True := by
  unfold splitOff; split
  · intro a; have := count_take_drop l i a; cnt
  · rfl
theorem fromFront_bal (i : Nat) : Sat (fromFront i l) (fun r l' => ∀ a, l.count a = (r ++ l').count a) (fun l' => l' = l) True := by
  unfold fromFront; split
  · intro a; have := count_take_drop l i a; cnt
  · rfl
theorem fromBack_bal (i : Nat) : Sat (fromBack i l) (fun r l' => ∀ a, l.count a = (r ++ l').count a) (fun l' => l' = l) True := by
  unfold fromBack; split
  · intro a; have := count_take_drop l (l.length - i) a; cnt
  · rfl
theorem drainFrom_bal : Sat (drainFrom l) (fun r l' => ∀ a, l.count a = (r ++ l').count a) (fun l' => l' = l) True := by
  intro a; cnt
theorem clone_bal (cl : A → Option A) (log : List A) (h : Bool → Prop) : Sat (clone dp cl (l, log))
    (fun r s => ∃ leak, (h false → leak = []) ∧ ∀ a, (bornOf cl l ++ l ++ log).count a = (r ++ s.1 ++ s.2 ++ leak).count a)
    (fun s => ∃ leak, (h true → leak = []) ∧ ∀ a, (bornOf cl l ++ l ++ log).count a = (s.1 ++ s.2 ++ leak).count a) True := by
  unfold clone; simp only; split
  · exact ⟨[], fun _ => rfl, fun a => by cnt⟩
  · simp only [panicDropping]; split
    · trivial
    · exact ⟨[], fun _ => rfl, fun a => by cnt⟩

theorem append_bal (s : List A × List A) : Sat (append N s) (fun _ t => ∀ a, (s.1 ++ s.2).count a = (t.1 ++ t.2).count a)
    (fun t => t = s) True := by
  unfold append; split
  · intro a; cnt
  · rfl
theorem drainFromFront_bal (n : Nat) (s : List A × List A) : Sat (drainFromFront N n s)
    (fun _ t => ∀ a, (s.1 ++ s.2).count a = (t.1 ++ t.2).count a) (fun t => t = s) True := by
  unfold drainFromFront; split
  · intro a; have := count_take_drop s.2 n a; cnt
  · rfl
theorem drainFromBack_bal (n : Nat) (s : List A × List A) : Sat (drainFromBack N n s)
    (fun _ t => ∀ a, (s.1 ++ s.2).count a = (t.1 ++ t.2).count a) (fun t => t = s) True := by
  unfold drainFromBack; split
  · intro a; have := count_take_drop s.2 (s.2.length - n) a; cnt
  · rfl
end

/-! ### Through the wrappers -/

theorem making_bal {args : List A} {x : M Unit (List A)} {log : List A}
    (hx : Sat (x ()) (fun c _ => ∀ a, args.count a = c.count a) (fun _ => True) True) :
    Sat (making dp args x log) (fun c log' => ∀ a, (args ++ log).count a = (c ++ log').count a)
      (fun log' => ∀ a, (args ++ log).count a = log'.count a) True := by
  unfold making M.onUnwind
  simp only [M.onFst_run]
  cases h : x () <;> rw [h] at hx <;> simp only [Sat] at hx
  · simp only [Out.mapState_ok, Sat]; intro a; have := hx a; cnt
  · simp only [Out.mapState_panic, dropSlice]
    cases hh : args.countP dp with
    | zero => simp only [Out.mapState_panic, Sat]; intro a; cnt
    | succ n => cases n <;> trivial
  · trivial

theorem borrowing_bal {it : It A} {x : M (It A × List A) (List A)} {log : List A}
    (hx : Sat (x (it, log)) (fun c s => ∀ a, (it.owned ++ log).count a = (c ++ s.2 ++ s.1.owned).count a)
      (fun s => ∀ a, (it.owned ++ log).count a = (s.2 ++ s.1.owned).count a) True) :
    Sat (borrowing it x log) (fun c log' => ∀ a, (it.owned ++ log).count a = (c ++ log').count a)
      (fun log' => ∀ a, (it.owned ++ log).count a = log'.count a) True := by
  unfold borrowing
  cases h : x (it, log) <;> rw [h] at hx <;> simp only [Sat, Out.mapState_ok, Out.mapState_panic] at hx ⊢
  · intro a; have := hx a; cnt
  · exact hx
  · trivial

theorem forking_bal {x : M (List A) (List A)} {l log : List A} {b : List A} {h : Bool → Prop}
    (hx : Sat (x l) (fun r l' => ∀ a, l.count a = (r ++ l').count a) (fun l' => l' = l) True)
    (hb : b = []) :
    Sat (forking (A := A) x (l, log))
      (fun d s => ∃ leak, (h false → leak = []) ∧ ∀ a, (onlyIf d b ++ l ++ log).count a
        = (optItems id d ++ s.1 ++ s.2 ++ leak).count a)
      (fun s => ∃ leak, (h true → leak = []) ∧ ∀ a, (b ++ l ++ log).count a = (s.1 ++ s.2 ++ leak).count a) True := by
  unfold forking
  apply Sat.bind
  apply Sat.onFst
  refine Sat.imp hx ?_ ?_ id
  · intro r s h
    apply Sat.pure
    refine ⟨[], fun _ => rfl, fun a => ?_⟩
    have := h a
    simp only [optItems, onlyIf, id, hb]; cnt
  · rintro s rfl
    exact ⟨[], fun _ => rfl, fun a => by simp only [hb]; cnt⟩

theorem both_bal {x : M (List A × List A) Unit} {l l' log : List A}
    (hx : Sat (x (l, l')) (fun _ t => ∀ a, (l ++ l').count a = (t.1 ++ t.2).count a) (fun t => t = (l, l')) True) :
    Sat (both (A := A) x ((l, l'), log))
      (fun r s => ∀ a, (l ++ l' ++ log).count a = (r.outs ++ s.1.1 ++ s.1.2 ++ s.2).count a)
      (fun s => ∀ a, (l ++ l' ++ log).count a = (s.1.1 ++ s.1.2 ++ s.2).count a) True := by
  unfold both
  apply Sat.bind
  apply Sat.onFst
  refine Sat.imp hx ?_ ?_ id
  · intro r s h
    apply Sat.pure
    intro a; have := h a; cnt
  · rintro s rfl a; cnt

/-! ### Destructors called one at a time -/
section
variable {l : List A}
theorem replaceGet_bal (i : Nat) (v : A) : Sat (replaceGet i v l)
    (fun r l' => (Res.val r).performed [v] = [v] ∧ ∀ a, ([v] ++ l).count a = ((Res.val r).outs ++ l').count a) (fun l' => l' = l) True := by
  unfold replaceGet
  cases h : l[i]? with
  | none => exact ⟨rfl, fun a => by cnt⟩
  | some x => exact ⟨rfl, fun a => by have := count_set l i x v a h; cnt⟩

theorem droppingSeq_bal {d l l' log : List A} (g h : Bool → Prop) (hd : ∀ a, l.count a = d.count a + l'.count a)
    (hp : g true → ∀ a, dp a = false) :
    Sat (droppingSeq dp d l l' log)
      (fun _ s => g false → ∃ leak, (h false → leak = []) ∧ ∀ a, ([] ++ l ++ log).count a = (s.1 ++ s.2 ++ leak).count a)
      (fun s => g true → ∃ leak, (h true → leak = []) ∧ ∀ a, ([] ++ l ++ log).count a = (s.1 ++ s.2 ++ leak).count a) True := by
  simp only [droppingSeq]
  split
  · rename_i e
    intro hg
    simp [hp hg] at e
  · exact fun _ => ⟨[], fun _ => rfl, fun a => by have := hd a; cnt⟩

theorem dropLeftSeq_bal (i : Nat) (log : List A) (g h : Bool → Prop) (hp : g true → ∀ a, dp a = false) : Sat (dropLeftSeq dp i (l, log))
      (fun _ s => g false → ∃ leak, (h false → leak = []) ∧ ∀ a, ([] ++ l ++ log).count a = (s.1 ++ s.2 ++ leak).count a)
      (fun s => g true → ∃ leak, (h true → leak = []) ∧ ∀ a, ([] ++ l ++ log).count a = (s.1 ++ s.2 ++ leak).count a) True := by
  unfold dropLeftSeq; simp only; split
  · exact droppingSeq_bal g h (fun a => (count_take_drop l i a).symm) hp
  · exact fun _ => ⟨[], fun _ => rfl, fun a => by cnt⟩
theorem dropRightSeq_bal (i : Nat) (log : List A) (g h : Bool → Prop) (hp : g true → ∀ a, dp a = false) : Sat (dropRightSeq dp i (l, log))
      (fun _ s => g false → ∃ leak, (h false → leak = []) ∧ ∀ a, ([] ++ l ++ log).count a = (s.1 ++ s.2 ++ leak).count a)
      (fun s => g true → ∃ leak, (h true → leak = []) ∧ ∀ a, ([] ++ l ++ log).count a = (s.1 ++ s.2 ++ leak).count a) True := by
  unfold dropRightSeq; simp only; split
  · exact droppingSeq_bal g h (fun a => by rw [Nat.add_comm]; exact (count_take_drop l i a).symm) hp
  · exact fun _ => ⟨[], fun _ => rfl, fun a => by cnt⟩
theorem clearSeq_bal (log : List A) (g h : Bool → Prop) (hp : g true → ∀ a, dp a = false) : Sat (clearSeq dp (l, log))
      (fun _ s => g false → ∃ leak, (h false → leak = []) ∧ ∀ a, ([] ++ l ++ log).count a = (s.1 ++ s.2 ++ leak).count a)
      (fun s => g true → ∃ leak, (h true → leak = []) ∧ ∀ a, ([] ++ l ++ log).count a = (s.1 ++ s.2 ++ leak).count a) True :=
  droppingSeq_bal g h (fun a => by simp) hp
theorem dropSeq_bal (log : List A) (h : Bool → Prop) (hh : ¬ h true) : Sat (dropSeq dp (l, log))
      (fun _ s => ∃ leak, (h false → leak = []) ∧ ∀ a, (l ++ log).count a = (s.2 ++ leak).count a)
      (fun s => ∃ leak, (h true → leak = []) ∧ ∀ a, (l ++ log).count a = (s.2 ++ leak).count a) True := by
  unfold dropSeq droppingSeq; simp only; split
  · refine ⟨l.drop (l.findIdx dp + 1), fun q => absurd q hh, fun a => ?_⟩
    have := count_take_drop l (l.findIdx dp + 1) a
    cnt
  · exact ⟨[], fun _ => rfl, fun a => by cnt⟩

theorem insertFromOrExtend_bal (i n : Nat) (it : It A) (l log : List A) (g h : Bool → Prop)
    (hh : h true → n ≤ it.items.length ∧ (It.owned (it.drop n)).countP dp = 0) : Sat (insertFromOrExtend N dp i n it (l, log))
      (fun _ s => g false → ∃ leak, (h false → leak = []) ∧ ∀ a, (it.owned ++ l ++ log).count a = (s.1 ++ s.2 ++ leak).count a)
      (fun s => g true → ∃ leak, (h true → leak = []) ∧ ∀ a, (it.owned ++ l ++ log).count a = (s.1 ++ s.2 ++ leak).count a) True := by
  unfold insertFromOrExtend
  split
  · refine Sat.imp (extend_bal it l log) ?_ ?_ id
    · exact fun _ s h _ => ⟨[], fun _ => rfl, fun a => by simpa using h a⟩
    · exact fun s h _ => ⟨[], fun _ => rfl, fun a => by simpa using h a⟩
  · exact insertFrom_bal i n it l log g h hh
end

/-! ### Slices -/
section
variable {l : List A} {α : Type}
omit [DecidableEq A] in
theorem span_le {lo hi : Bound} {n : Nat} {w : Nat × Nat} (h : span lo hi n = some w) : w.1 ≤ w.2 ∧ w.2 ≤ n := by
  have key : ∀ a, span.upTo hi n a = some w → w.1 ≤ w.2 ∧ w.2 ≤ n := by
    intro a h
    simp only [span.upTo] at h
    split at h <;> split at h <;> cases h <;> assumption
  cases lo with
  | excluded _ => cases h
  | unbounded => exact key _ h
  | included i => exact key _ h
omit [DecidableEq A] in
theorem narrow_le {cuts : List Cut} {v w : Nat × Nat} (hv : v.1 ≤ v.2) (h : narrow cuts v = some w) :
    v.1 ≤ w.1 ∧ w.1 ≤ w.2 ∧ w.2 ≤ v.2 := by
  induction cuts generalizing v with
  | nil => cases h; exact ⟨Nat.le_refl _, hv, Nat.le_refl _⟩
  | cons k r ih =>
    obtain ⟨a, b⟩ := v
    simp only at hv
    cases k with
    | sub lo hi =>
      simp only [narrow] at h
      split at h
      · rename_i x y e
        have h1 := span_le e
        simp only at h1
        have := ih (v := (a + x, a + y)) (by simp only; omega) h
        simp only at this ⊢
        omega
      · cases h
    | left i =>
      simp only [narrow] at h
      split at h
      · have := ih (v := (a, a + i)) (by simp only; omega) h
        simp only at this ⊢
        omega
      · cases h
    | right i =>
      simp only [narrow] at h
      split at h
      · have := ih (v := (a + i, b)) (by simp only; omega) h
        simp only at this ⊢
        omega
      · cases h
omit [DecidableEq A] in
theorem window_le {lo hi : Bound} {cuts : List Cut} {n : Nat} {w : Nat × Nat} (h : window lo hi cuts n = some w) :
    w.1 ≤ w.2 ∧ w.2 ≤ n := by
  simp only [window] at h
  split at h
  · rename_i v e
    have h1 := span_le e
    have := narrow_le h1.1 h
    omega
  · cases h

theorem count_part (l : List A) {w : Nat × Nat} (h : w.1 ≤ w.2) (a : A) :
    l.count a = (l.take w.1).count a + (part w l).count a + (l.drop w.2).count a := by
  have h1 := count_take_drop l w.2 a
  have h2 := count_take_drop (l.take w.2) w.1 a
  rw [List.take_take, Nat.min_eq_left h] at h2
  simp only [part]
  omega

theorem within_bal {lo hi : Bound} {cuts : List Cut} {x : M (List A) α} {f : α → Res A} {args : List A} {g : Prop}
    (hx : ∀ m, Sat (x m) (fun r m' => g → (f r).performed args = args ∧ ∀ a, (args ++ m).count a = ((f r).outs ++ m').count a)
      (fun m' => m' = m) True) :
    Sat (within lo hi cuts x l)
      (fun r l' => g → (f r).performed args = args ∧ ∀ a, (args ++ l).count a = ((f r).outs ++ l').count a)
      (fun l' => l' = l) True := by
  unfold within
  split
  · rfl
  · rename_i w hw
    have h := hx (part w l)
    have hle := (window_le hw).1
    cases e : x (part w l) <;> rw [e] at h <;> simp only [Sat, Out.mapState_ok, Out.mapState_panic] at h ⊢
    · intro hg
      refine ⟨(h hg).1, fun a => ?_⟩
      have h1 := count_part l hle a
      have h2 := (h hg).2 a
      cnt
    · subst h
      have : l.take w.1 ++ part w l = l.take w.2 := by
        have h2 := List.take_append_drop w.1 (l.take w.2)
        rwa [List.take_take, Nat.min_eq_left hle] at h2
      rw [this, List.take_append_drop]
    · trivial

theorem cloneWithin_bal (cl : A → Option A) (lo hi : Bound) (cuts : List Cut) (log : List A) (h : Bool → Prop) :
    Sat (cloneWithin dp cl lo hi cuts (l, log))
    (fun r s => ∃ leak, (h false → leak = []) ∧ ∀ a, (bornWithin cl lo hi cuts l ++ l ++ log).count a = (r ++ s.1 ++ s.2 ++ leak).count a)
    (fun s => ∃ leak, (h true → leak = []) ∧ ∀ a, (bornWithin cl lo hi cuts l ++ l ++ log).count a = (s.1 ++ s.2 ++ leak).count a) True := by
  unfold cloneWithin bornWithin; simp only; split
  · exact ⟨[], fun _ => rfl, fun a => by simp⟩
  · split
    · exact ⟨[], fun _ => rfl, fun a => by cnt⟩
    · simp only [panicDropping]; split
      · trivial
      · exact ⟨[], fun _ => rfl, fun a => by cnt⟩
end

/-! ### Destructors that do not panic -/
section
variable (hd : ∀ a, dp a = false)
omit [DecidableEq A]
include hd
theorem droppingSeq_total (d l l' log : List A) : droppingSeq dp d l l' log = .ok () (l', log ++ d) := by
  simp [droppingSeq, any_total hd]
theorem insertFromOrExtend_total (i n : Nat) (it : It A) (s : List A × List A) : Runs (insertFromOrExtend N dp i n it s) := by
  unfold insertFromOrExtend; split
  · exact extend_total hd N it s
  · exact insertFrom_total hd N i n it s
theorem cloneWithin_total (cl : A → Option A) (lo hi : Bound) (cuts : List Cut) (s : List A × List A) :
    Runs (cloneWithin dp cl lo hi cuts s) := by
  simp only [cloneWithin]; split
  · trivial
  · split
    · trivial
    · rw [panicDropping_total hd]; trivial
end
omit [DecidableEq A] in
theorem within_total {α : Type} {lo hi : Bound} {cuts : List Cut} {x : M (List A) α} (hx : ∀ m, Runs (x m)) (l : List A) :
    Runs (within lo hi cuts x l) := by
  unfold within; split
  · trivial
  · rename_i w _
    have := hx (part w l)
    cases e : x (part w l) <;> rw [e] at this <;> simp_all [Runs, Sat]

end Spec
end Verif
