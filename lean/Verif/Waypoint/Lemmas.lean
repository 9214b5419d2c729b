import Verif.Waypoint.Spec

namespace Verif.Waypoint

variable {α β : Type}

theorem Covers.map (f : α → β) {n m : Nat} {ws : List α} {segs : List (List α)} (h : Covers n m ws segs) :
    Covers n m (ws.map f) (segs.map (·.map f)) := by
  induction h with
  | last hl => exact .last (by simpa using hl)
  | more d h1 h2 h3 h4 ih =>
    rw [List.map_cons, List.map_take]
    rw [List.map_drop] at ih
    exact .more d h1 h2 (by simpa using h3) ih

/-- The segments as the loop builds them: `s` elements are carried over from the previous segment. -/
inductive Chunks (n m : Nat) : Nat → List α → List (List α) → Prop
  | last {s ws} : ws.length ≤ n → Chunks n m s ws [ws]
  | more {s ws segs} : n < ws.length →
      Chunks n m (n + 1 - max (n - m) s) (ws.drop (max (n - m) s)) segs →
      Chunks n m s ws (ws.take n :: segs)

theorem Chunks.covers {n m s : Nat} {ws : List α} {segs : List (List α)} (h : Chunks n m s ws segs)
    (hm : m + 2 ≤ n) (hs : s ≤ m + 1) : Covers n (min m (n - m - 1)) ws segs := by
  induction h with
  | last hl => exact .last hl
  | @more s ws segs hl _ ih =>
    have h1 : n - m ≤ max (n - m) s := Nat.le_max_left _ _
    have h2 : max (n - m) s ≤ max (n - m) (m + 1) := by omega
    exact .more (max (n - m) s) (by omega) (by omega) hl (ih (by omega))

/-- Closed form of the segments. -/
theorem Chunks.index {n m s : Nat} {ws : List α} {segs : List (List α)} (h : Chunks n m s ws segs)
    (hm : 2 * m + 1 ≤ n) (hs : s ≤ n - m) : ∀ j, segs[j]? =
      if j = 0 ∨ j * (n - m) + m < ws.length then some ((ws.drop (j * (n - m))).take n) else none := by
  induction h with
  | @last s ws hl =>
    intro j
    cases j with
    | zero => simp [List.take_of_length_le hl]
    | succ j =>
      have h1 : n - m ≤ (j + 1) * (n - m) := Nat.le_mul_of_pos_left _ (by omega)
      rw [if_neg (by omega)]
      simp
  | @more s ws segs hl _ ih =>
    have hmax : max (n - m) s = n - m := by omega
    rw [hmax] at ih
    have ih := ih (by omega)
    intro j
    cases j with
    | zero => simp
    | succ j =>
      rw [List.getElem?_cons_succ, ih j, List.drop_drop, List.length_drop]
      have h1 : (j + 1) * (n - m) = j * (n - m) + (n - m) := Nat.succ_mul _ _
      rw [h1, Nat.add_comm (n - m)]
      by_cases hj : j = 0
      · subst hj
        rw [if_pos (.inl rfl), if_pos (.inr (by omega))]
      · by_cases hc : j * (n - m) + m < ws.length - (n - m)
        · rw [if_pos (.inr hc), if_pos (.inr (by omega))]
        · rw [if_neg (by omega), if_neg (by omega)]

/-! ### The loop -/

@[simp] theorem push_wps (s : Seg) (w : Wp) : (s.push w).wps = s.wps ++ [w] := rfl
@[simp] theorem push_id (s : Seg) (w : Wp) : (s.push w).id = s.id := rfl
@[simp] theorem push_first (s : Seg) (w : Wp) : (s.push w).first = s.first := rfl
@[simp] theorem enter_wps (s : Seg) (w : Wp) : (s.enter w).wps = s.wps := by
  unfold Seg.enter; split <;> rfl
@[simp] theorem enter_id (s : Seg) (w : Wp) : (s.enter w).id = s.id := by
  unfold Seg.enter; split <;> rfl

/-- A waypoint is appended and the entry set. -/
theorem entry_enter {s : Seg} {w : Wp} (h : s.wps ≠ [] → entry s.wps = some s.first) :
    entry ((s.push w).enter w).wps = some ((s.push w).enter w).first := by
  rw [enter_wps, push_wps]
  unfold Seg.enter
  rw [push_wps]
  rcases hs : s.wps with _ | ⟨a, _ | ⟨b, l⟩⟩
  · simp [entry]
  · simp [entry]
  · have := h (by rw [hs]; simp)
    rw [hs] at this
    simpa [entry] using this

/-- The result of the loop. -/
def result (b : Build) : List Seg := if b.seg1.first ≥ 0 then b.done ++ [b.seg1] else b.done

theorem place_chunks {c : Cfg} {n m : Nat} (hn : c.serveU = n) (hmc : c.overlap = m) (hm0 : 0 < m)
    (hm : m + 2 ≤ n) (hc : c.loiterSegments = false) : ∀ (rest : List Wp) (b : Build) (s : Nat),
    b.seg1.wps.length ≤ n → s ≤ b.seg1.wps.length → s ≤ m + 1 →
    b.seg2.wps = b.seg1.wps.drop (max (n - m) s) →
    (∀ w ∈ b.seg1.wps, 0 ≤ w.number) → (∀ w ∈ rest, 0 ≤ w.number) →
    (b.seg1.wps ++ rest ≠ []) →
    (b.seg1.wps ≠ [] → 0 ≤ b.seg1.first) →
    (2 ≤ min m (n - m - 1) → b.seg1.wps ≠ [] → entry b.seg1.wps = some b.seg1.first) →
    (b.seg2.wps ≠ [] → entry b.seg2.wps = some b.seg2.first) →
    ∃ tail, result (rest.foldl (place c) b) = b.done ++ tail ∧
      Chunks n m s (b.seg1.wps ++ rest) (tail.map (·.wps)) ∧
      (∀ seg ∈ tail, 0 ≤ seg.first) ∧
      (2 ≤ min m (n - m - 1) → ∀ seg ∈ tail, entry seg.wps = some seg.first) ∧
      (rest.foldl (place c) b).ok = b.ok ∧ 0 ≤ (rest.foldl (place c) b).seg1.first := by
  intro rest
  induction rest with
  | nil =>
    intro b s h1 _ hs _ _ _ h7 h8 h9 _
    have hne : b.seg1.wps ≠ [] := by simpa using h7
    refine ⟨[b.seg1], ?_, ?_, ?_, ?_, rfl, h8 hne⟩
    · simp [result, h8 hne]
    · simpa using Chunks.last h1
    · simpa using h8 hne
    · intro hmm seg hseg
      simp only [List.mem_singleton] at hseg
      subst hseg
      exact h9 hmm hne
  | cons w rest ih =>
    intro b s h1 h2 hs h4 h5 h6 _ h8 h9 h10
    rw [List.foldl_cons]
    have hwn : 0 ≤ w.number := h6 w (by simp)
    have hrn : ∀ x ∈ rest, 0 ≤ x.number := fun x hx => h6 x (List.mem_cons_of_mem _ hx)
    by_cases hlt : b.seg1.wps.length < n
    · -- the segment grows
      have hp : place c b w = { b with
          seg1 := (b.seg1.push w).enter w,
          seg2 := (if n - (b.seg1.wps.length + 1) < m then b.seg2.push w else b.seg2).enter w } := by
        simp only [place, hn, hmc, if_pos hlt, push_wps, List.length_append, List.length_cons,
          List.length_nil, Nat.zero_add]
      have hfirst : 0 ≤ ((b.seg1.push w).enter w).first := by
        unfold Seg.enter
        split
        · exact hwn
        · rename_i hx
          refine h8 ?_
          intro e
          simp [e] at hx
      have hseg2 : ((if n - (b.seg1.wps.length + 1) < m then b.seg2.push w else b.seg2).enter w).wps =
          (b.seg1.wps ++ [w]).drop (max (n - m) s) := by
        rw [enter_wps]
        by_cases hov : n - (b.seg1.wps.length + 1) < m
        · rw [if_pos hov, push_wps, h4, List.drop_append_of_le_length (by omega)]
        · rw [if_neg hov, h4, List.drop_eq_nil_of_le (by omega), List.drop_eq_nil_of_le]
          simp only [List.length_append, List.length_cons, List.length_nil]
          omega
      obtain ⟨tail, t1, t2, t3, t4, t5, t6⟩ := ih (place c b w) s
        (by rw [hp]; simp only [enter_wps, push_wps, List.length_append, List.length_cons, List.length_nil]; omega)
        (by rw [hp]; simp only [enter_wps, push_wps, List.length_append, List.length_cons, List.length_nil]; omega)
        hs
        (by rw [hp]; simp only [hseg2, enter_wps, push_wps])
        (by
          rw [hp]
          intro x hx
          simp only [enter_wps, push_wps, List.mem_append, List.mem_singleton] at hx
          rcases hx with hx | rfl
          · exact h5 x hx
          · exact hwn)
        hrn
        (by rw [hp]; simp)
        (by rw [hp]; exact fun _ => hfirst)
        (by
          rw [hp]
          intro hmm _
          exact entry_enter (h9 hmm))
        (by
          rw [hp]
          intro hne
          by_cases hov : n - (b.seg1.wps.length + 1) < m
          · simp only [if_pos hov]
            exact entry_enter h10
          · exfalso
            simp only [if_neg hov, enter_wps, h4] at hne
            exact hne (List.drop_eq_nil_of_le (by omega)))
      refine ⟨tail, ?_, ?_, t3, t4, ?_, t6⟩
      · rw [t1, hp]
      · rw [hp] at t2
        simpa using t2
      · rw [t5, hp]
    · -- the segment is full
      have hlen : b.seg1.wps.length = n := by omega
      have hne1 : b.seg1.wps ≠ [] := by
        intro e; rw [e] at hlen; simp at hlen; omega
      have hne2 : b.seg2.wps ≠ [] := by
        rw [h4]
        intro e
        have := List.drop_eq_nil_iff.1 e
        omega
      have hf2 : 0 ≤ b.seg2.first := by
        have h := h10 hne2
        have h2n : ∀ x ∈ b.seg2.wps, 0 ≤ x.number := by
          intro x hx
          rw [h4] at hx
          exact h5 x (List.mem_of_mem_drop hx)
        rcases hs2 : b.seg2.wps with _ | ⟨x, _ | ⟨y, l⟩⟩
        · exact absurd hs2 hne2
        · rw [hs2] at h h2n
          simp only [entry, Option.some.injEq] at h
          rw [← h]; exact h2n x (by simp)
        · rw [hs2] at h h2n
          simp only [entry, Option.some.injEq] at h
          rw [← h]; exact h2n y (by simp)
      have hp : place c b w = { b with
          done := b.done ++ [b.seg1], seg1 := b.seg2.push w, seg2 := { id := b.next }, next := b.next + 1 } := by
        simp only [place, hn, if_neg hlt, ge_iff_le, h8 hne1, if_true, hc, Bool.false_eq_true, if_false]
      have hlen2 : b.seg2.wps.length = n - max (n - m) s := by
        rw [h4, List.length_drop, hlen]
      obtain ⟨tail, t1, t2, t3, t4, t5, t6⟩ := ih (place c b w) (n + 1 - max (n - m) s)
        (by rw [hp]; simp only [push_wps, List.length_append, List.length_cons, List.length_nil]; omega)
        (by rw [hp]; simp only [push_wps, List.length_append, List.length_cons, List.length_nil]; omega)
        (by omega)
        (by
          rw [hp]
          simp only [push_wps]
          refine (List.drop_eq_nil_of_le ?_).symm
          simp only [List.length_append, List.length_cons, List.length_nil]
          omega)
        (by
          rw [hp]
          intro x hx
          simp only [push_wps, List.mem_append, List.mem_singleton] at hx
          rcases hx with hx | rfl
          · rw [h4] at hx
            exact h5 x (List.mem_of_mem_drop hx)
          · exact hwn)
        hrn
        (by rw [hp]; simp)
        (by rw [hp]; exact fun _ => hf2)
        (by
          rw [hp]
          intro hmm _
          have h := h10 hne2
          simp only [push_wps, push_first]
          rcases hs2 : b.seg2.wps with _ | ⟨x, _ | ⟨y, l⟩⟩
          · exact absurd hs2 hne2
          · rw [hs2] at hlen2
            simp at hlen2
            omega
          · rw [hs2] at h
            simpa [entry] using h)
        (by rw [hp]; simp)
      refine ⟨b.seg1 :: tail, ?_, ?_, ?_, ?_, ?_, t6⟩
      · rw [t1, hp]; simp
      · rw [hp] at t2
        simp only [push_wps] at t2
        rw [List.map_cons]
        have htake : (b.seg1.wps ++ w :: rest).take n = b.seg1.wps := by
          rw [← hlen, List.take_left]
        have hdrop : (b.seg1.wps ++ w :: rest).drop (max (n - m) s) = b.seg2.wps ++ [w] ++ rest := by
          rw [List.drop_append_of_le_length (by omega), h4]; simp
        have := Chunks.more (n := n) (m := m) (s := s) (ws := b.seg1.wps ++ w :: rest)
          (segs := tail.map (·.wps)) (by simp; omega) (by rw [hdrop]; exact t2)
        rw [htake] at this
        exact this
      · intro seg hseg
        rcases List.mem_cons.1 hseg with rfl | hseg
        · exact h8 hne1
        · exact t3 seg hseg
      · intro hmm seg hseg
        rcases List.mem_cons.1 hseg with rfl | hseg
        · exact h9 hmm hne1
        · exact t4 hmm seg hseg
      · rw [t5, hp]

end Verif.Waypoint
