import Verif.Moves
import Verif.Props.ChunkOps
import Verif.Props.RingOps
/-
C72, C73: how many slots of storage a call rewrites (the documented costs).
-/
namespace Verif.Chunk
variable {A : Type} {E : Env} {N : Nat} {c : Chunk A} {l : List A}

local macro "moves" a:term:max n:term:max : tactic =>
  `(tactic| exact Mem.Rewritten.of_range (a := $a) (n := $n) (by omega) (fun j hj => by
      simp only [Mem.put, Mem.blit]; (repeat rw [if_neg (by omega)])))

/-- C72. `push_back` writes one slot and moves nothing when the last slot is free or the chunk is empty; otherwise it moves each item
once. -/
theorem C72_push_back (hN : 2 * N < E.W) (h : View E N c l) (v : A) {s : Chunk A} (e : pushBack E N v c = .ok () s) :
    Mem.Rewritten N (l.length + 1) c.mem s.mem ∧ (c.right < N ∨ l.length = 0 → Mem.Rewritten N 1 c.mem s.mem) := by
  have hs : Sat (pushBack E N v c) (fun _ s => Mem.Rewritten N (l.length + 1) c.mem s.mem ∧
      (c.right < N ∨ l.length = 0 → Mem.Rewritten N 1 c.mem s.mem)) (fun _ => True) False := by
    obtain ⟨h1, h2, h3⟩ := h.rep hN
    unfold pushBack
    vc
    · exact ⟨((Mem.Rewritten.none N l.length _).put ..), fun _ => (Mem.Rewritten.none N 0 _).put ..⟩
    · exact ⟨by moves 0 (l.length + 1), fun _ => by omega⟩
    · exact ⟨((Mem.Rewritten.none N l.length _).put ..), fun _ => (Mem.Rewritten.none N 0 _).put ..⟩
  rw [e] at hs
  exact hs

/-- C72. `push_front` writes one slot and moves nothing when the first slot is free or the chunk is empty; otherwise it moves each item
once. -/
theorem C72_push_front (hN : 2 * N < E.W) (h : View E N c l) (v : A) {s : Chunk A} (e : pushFront E N v c = .ok () s) :
    Mem.Rewritten N (l.length + 1) c.mem s.mem ∧ (0 < c.left ∨ l.length = 0 → Mem.Rewritten N 1 c.mem s.mem) := by
  have hs : Sat (pushFront E N v c) (fun _ s => Mem.Rewritten N (l.length + 1) c.mem s.mem ∧
      (0 < c.left ∨ l.length = 0 → Mem.Rewritten N 1 c.mem s.mem)) (fun _ => True) False := by
    obtain ⟨h1, h2, h3⟩ := h.rep hN
    unfold pushFront
    vc
    · exact ⟨((Mem.Rewritten.none N l.length _).put ..), fun _ => (Mem.Rewritten.none N 0 _).put ..⟩
    · exact ⟨by moves (N - c.right - 1) (l.length + 1), fun _ => by omega⟩
    · exact ⟨((Mem.Rewritten.none N l.length _).put ..), fun _ => (Mem.Rewritten.none N 0 _).put ..⟩
  rw [e] at hs
  exact hs

/-- C72. `pop_front` and `pop_back` move nothing. -/
theorem C72_pop (hN : 2 * N < E.W) (h : View E N c l) {a : A} {s : Chunk A}
    (e : popFront E N c = .ok a s ∨ popBack E N c = .ok a s) : s.mem = c.mem := by
  obtain ⟨h1, h2, h3⟩ := h.rep hN
  have hl : Sat (popFront E N c) (fun _ s => s.mem = c.mem) (fun _ => True) False := by
    unfold popFront
    vc
    exact sat_forceRead (v := l[0]'(by omega)) (by omega) (by rw [h3 _ (by omega) (by omega)]; grind) (by vc)
  have hr : Sat (popBack E N c) (fun _ s => s.mem = c.mem) (fun _ => True) False := by
    unfold popBack
    vc
    exact sat_forceRead (v := l[l.length - 1]'(by omega)) (by omega) (by rw [h3 _ (by omega) (by omega)]; grind) rfl
  rcases e with e | e
  · rw [e] at hl; exact hl
  · rw [e] at hr; exact hr

/-- C72. `insert(i, v)` writes the new item and moves at most the items on one side of it: when there is room at both ends the side with
fewer items, otherwise the side where there is room. -/
theorem C72_insert (hN : 2 * N < E.W) (h : View E N c l) (i : Nat) (v : A) {s : Chunk A} (e : insert E N i v c = .ok () s) :
    (0 < c.left ∧ c.right < N → Mem.Rewritten N (min i (l.length - i) + 1) c.mem s.mem) ∧
    (c.left = 0 → Mem.Rewritten N (l.length - i + 1) c.mem s.mem) ∧ (c.right = N → Mem.Rewritten N (i + 1) c.mem s.mem) := by
  have hs : Sat (insert E N i v c) (fun _ s => (0 < c.left ∧ c.right < N → Mem.Rewritten N (min i (l.length - i) + 1) c.mem s.mem) ∧
      (c.left = 0 → Mem.Rewritten N (l.length - i + 1) c.mem s.mem) ∧ (c.right = N → Mem.Rewritten N (i + 1) c.mem s.mem)) (fun _ => True) False := by
    obtain ⟨h1, h2, h3⟩ := h.rep hN
    unfold insert
    vc
    · exact ⟨fun _ => by moves (c.left - 1) (i + 1), fun _ => by omega, fun _ => by moves (c.left - 1) (i + 1)⟩
    · exact ⟨fun _ => by moves (i + c.left) (l.length - i + 1), fun _ => by moves (i + c.left) (l.length - i + 1), fun _ => by omega⟩
  rw [e] at hs
  exact hs

/-- C72. `remove(i)` moves only the items on the side of `i` that has fewer of them. -/
theorem C72_remove (hN : 2 * N < E.W) (h : View E N c l) (i : Nat) {a : A} {s : Chunk A} (e : remove E N i c = .ok a s) :
    Mem.Rewritten N (min i (l.length - 1 - i)) c.mem s.mem := by
  have hs : Sat (remove E N i c) (fun _ s => Mem.Rewritten N (min i (l.length - 1 - i)) c.mem s.mem) (fun _ => True) False := by
    obtain ⟨h1, h2, h3⟩ := h.rep hN
    unfold remove
    vc
    refine sat_forceRead (v := l[i]'(by omega)) (by omega) (by rw [h3 _ (by omega) (by omega)]; grind) ?_
    vc
    · moves (c.left + 1) i
    · moves (i + c.left) (l.length - 1 - i)
  rw [e] at hs
  exact hs

/-- C72 is not vacuous: with room at both ends, inserting at 1 of 3 moves the first item only. -/
example : View dbg64 5 (⟨1, 4, ((Mem.uninit.put 1 10).put 2 20).put 3 30⟩ : Chunk Nat) [10, 20, 30] ∧
    ∃ s, insert dbg64 5 1 9 (⟨1, 4, ((Mem.uninit.put 1 10).put 2 20).put 3 30⟩ : Chunk Nat) = .ok () s ∧
      s.mem 0 = some 10 ∧ s.mem 1 = some 9 ∧ s.mem 2 = some 20 ∧ s.mem 3 = some 30 := ⟨rfl, _, rfl, rfl, rfl, rfl, rfl⟩

end Verif.Chunk

namespace Verif.Ring
variable {A : Type} {E : Env} {N : Nat} {c : Ring A} {l : List A}

/-- C73. `insert(i, v)` writes the new item and moves at most the items on the side of it that has fewer of them. -/
theorem C73_insert (hW : 2 * N < E.W) (h : View E N c l) (i : Nat) (v : A) {s : Ring A} (e : insert E N i v c = .ok () s) :
    Mem.Rewritten N (min i (l.length - i) + 1) c.mem s.mem := by
  have hs : Sat (insert E N i v c) (fun _ s => Mem.Rewritten N (min i (l.length - i) + 1) c.mem s.mem) (fun _ => True) False := by
    have h0 := h.rep hW
    obtain ⟨h1, h2, h3, h4⟩ := h.rep hW
    unfold insert
    vc
    · unfold pushFront
      vc
      exact (Mem.Rewritten.none N _ _).put ..
    · unfold pushBack
      vc
      exact (Mem.Rewritten.none N _ _).put ..
    · refine sat_shiftRight hW h0 (by omega) (by omega) (fun c' a1 a2 a3 a4 a5 => ?_)
      vc
      refine (a5.put _ _).mono ?_
      omega
    · refine sat_shiftLeft hW h0 (by omega) (by omega) (fun c' a1 a2 a3 a4 a5 => ?_)
      vc
      refine (a5.put _ _).mono ?_
      omega
  rw [e] at hs
  exact hs

/-- C73. `remove(i)` moves at most the items on one side of it, a shortest one up to one item. -/
theorem C73_remove (hW : 2 * N < E.W) (h : View E N c l) (i : Nat) {a : A} {s : Ring A} (e : remove E N i c = .ok a s) :
    Mem.Rewritten N (min i (l.length - i)) c.mem s.mem := by
  have hs : Sat (remove E N i c) (fun _ s => Mem.Rewritten N (min i (l.length - i)) c.mem s.mem) (fun _ => True) False := by
    have h0 := h.rep hW
    obtain ⟨h1, h2, h3, h4⟩ := h.rep hW
    have hs : ∀ j, j < l.length → ∃ a, lm N c.origin c.mem j = some a := by
      intro j hj; rw [h4 j hj]; exact ⟨_, List.getElem?_eq_getElem hj⟩
    unfold remove
    vc
    have hi : i < l.length := by omega
    obtain ⟨a, ha⟩ := hs i hi
    refine sat_forceReadL h1 (by omega) ha ?_
    vc
    · refine sat_closeUpLoop hW _ _ _ h1 (by omega) (by omega) (by omega) ?_ ?_
      · intro j _ h6; exact hs j (by omega)
      · intro m hm
        vc
        refine rewritten_of_lm h1 (a := i) (n := l.length - 1 - i) (by omega) fun j hj => ?_
        rw [hm j, if_neg (by omega)]
    · refine sat_closeDownLoop hW _ _ _ h1 (by omega) (by omega) ?_ ?_
      · intro j h6; exact hs j (by omega)
      · intro m hm
        vc
        refine rewritten_of_lm h1 (a := 1) (n := i) (by omega) fun j hj => ?_
        rw [hm j, if_neg (by omega)]
  rw [e] at hs
  exact hs

/-- C73 is not vacuous: inserting near the front of a buffer whose items go round the seam moves the first item only. -/
example : View Chunk.dbg64 5 (⟨4, 3, ((Mem.uninit.put 4 10).put 0 20).put 1 30⟩ : Ring Nat) [10, 20, 30] ∧
    ∃ s, insert Chunk.dbg64 5 1 9 (⟨4, 3, ((Mem.uninit.put 4 10).put 0 20).put 1 30⟩ : Ring Nat) = .ok () s ∧
      s.mem 3 = some 10 ∧ s.mem 4 = some 9 ∧ s.mem 0 = some 20 ∧ s.mem 1 = some 30 :=
  ⟨⟨rfl, by decide, by decide⟩, _, rfl, rfl, rfl, rfl, rfl⟩

end Verif.Ring
