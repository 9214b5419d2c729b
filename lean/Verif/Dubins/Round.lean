import Verif.Dubins.Corners

/-!
# What a route round corners is (C191)
-/

namespace Verif.Dubins

open Complex

/-! ### Places less than a metre apart -/

/-- What is left after the first place `p`: a place less than a metre from the last one that is left is passed over. -/
noncomputable def keep (p : ℂ) : List ℂ → List ℂ
  | [] => [p]
  | q :: rest => if ‖p - q‖ < 1 then keep p rest else p :: keep q rest

theorem dropOne_none : ∀ (p : ℂ) (l : List ℂ), dropOne (p :: l) = none → keep p l = p :: l
  | p, [], _ => rfl
  | p, q :: rest, h => by
      unfold dropOne at h
      unfold keep
      split at h
      · simp at h
      · rename_i hn
        rw [if_neg hn]
        cases hd : dropOne (q :: rest) with
        | none => rw [dropOne_none q rest hd]
        | some m => rw [hd] at h; simp at h

theorem dropOne_some : ∀ (p : ℂ) (l l' : List ℂ), dropOne (p :: l) = some l' → ∃ m, l' = p :: m ∧ keep p m = keep p l
  | p, [], l', h => by simp [dropOne] at h
  | p, q :: rest, l', h => by
      unfold dropOne at h
      split at h
      · rename_i hn
        simp only [Option.some.injEq] at h
        exact ⟨rest, h.symm, by conv => rhs; unfold keep; rw [if_pos hn]⟩
      · rename_i hn
        cases hd : dropOne (q :: rest) with
        | none => rw [hd] at h; simp at h
        | some m =>
            rw [hd] at h
            simp only [Option.map_some, Option.some.injEq] at h
            obtain ⟨m', rfl, hk⟩ := dropOne_some q rest m hd
            refine ⟨q :: m', h.symm, ?_⟩
            simp only [keep, if_neg hn, hk]

theorem thin_keep : ∀ (n : ℕ) (p : ℂ) (l : List ℂ), l.length ≤ n → thin (p :: l) = keep p l := by
  intro n
  induction n with
  | zero =>
      intro p l h
      obtain rfl : l = [] := List.length_eq_zero_iff.1 (by omega)
      unfold thin
      simp [dropOne, keep]
  | succ n ih =>
      intro p l h
      unfold thin
      split
      · rename_i hd
        exact (dropOne_none p l hd).symm
      · rename_i l' hd
        obtain ⟨m, rfl, hk⟩ := dropOne_some p l l' hd
        have := dropOne_length hd
        simp only [List.length_cons] at this
        rw [ih p m (by omega), hk]

theorem thin_cons (p : ℂ) (l : List ℂ) : thin (p :: l) = keep p l := thin_keep l.length p l le_rfl

theorem keep_head (p : ℂ) : ∀ l, ∃ t, keep p l = p :: t
  | [] => ⟨[], rfl⟩
  | q :: rest => by
      unfold keep
      split
      · exact keep_head p rest
      · exact ⟨_, rfl⟩

theorem keep_sub : ∀ (p : ℂ) (l : List ℂ), (keep p l).Sublist (p :: l)
  | p, [] => List.Sublist.refl _
  | p, q :: rest => by
      unfold keep
      split
      · exact (keep_sub p rest).trans (List.Sublist.cons_cons p (List.sublist_cons_self q rest))
      · exact List.Sublist.cons_cons p (keep_sub q rest)

theorem keep_chain : ∀ (p : ℂ) (l : List ℂ), (keep p l).IsChain (fun x y => 1 ≤ ‖x - y‖)
  | p, [] => List.isChain_singleton _
  | p, q :: rest => by
      unfold keep
      split
      · exact keep_chain p rest
      · rename_i hn
        have := keep_chain q rest
        obtain ⟨t, ht⟩ := keep_head q rest
        rw [ht] at this ⊢
        exact List.IsChain.cons_cons (not_lt.1 hn) this

theorem keep_near : ∀ (p : ℂ) (l : List ℂ), ∀ x ∈ p :: l, ∃ y ∈ keep p l, ‖y - x‖ < 1
  | p, [], x, hx => ⟨p, by simp [keep], by simp only [List.mem_singleton] at hx; subst hx; simp⟩
  | p, q :: rest, x, hx => by
      unfold keep
      split
      · rename_i hn
        rcases List.mem_cons.1 hx with rfl | hx
        · exact keep_near x rest x (by simp)
        · rcases List.mem_cons.1 hx with rfl | hx
          · obtain ⟨t, ht⟩ := keep_head p rest
            exact ⟨p, by rw [ht]; simp, hn⟩
          · exact keep_near p rest x (by simp [hx])
      · rcases List.mem_cons.1 hx with rfl | hx
        · exact ⟨x, by simp, by simp⟩
        · obtain ⟨y, hy, h⟩ := keep_near q rest x hx
          exact ⟨y, by simp [hy], h⟩

theorem keep_all : ∀ (p : ℂ) (l : List ℂ), (p :: l).IsChain (fun x y => 1 ≤ ‖x - y‖) → keep p l = p :: l
  | p, [], _ => rfl
  | p, q :: rest, h => by
      rw [List.isChain_cons_cons] at h
      unfold keep
      rw [if_neg (not_lt.2 h.1), keep_all q rest h.2]

/-- **C191.**  Before a path is flown over its corners, places less than a metre from the place before are left out: the first place stays,
the order stays, what is left is at least a metre apart, and every place is within a metre of one that is left. -/
theorem C191_short (p : ℂ) (l : List ℂ) :
    (thin (p :: l)).head? = some p ∧ (thin (p :: l)).Sublist (p :: l) ∧ (thin (p :: l)).IsChain (fun x y => 1 ≤ ‖x - y‖) ∧
    (∀ x ∈ p :: l, ∃ y ∈ thin (p :: l), ‖y - x‖ < 1) ∧ ((p :: l).IsChain (fun x y => 1 ≤ ‖x - y‖) → thin (p :: l) = p :: l) := by
  rw [thin_cons]
  obtain ⟨t, ht⟩ := keep_head p l
  exact ⟨by rw [ht]; rfl, keep_sub p l, keep_chain p l, keep_near p l, keep_all p l⟩

/-! ### The way to the first corner -/

/-- The place is nearer to the circle on its side. -/
theorem side_nearer {b v : ℂ} {hb r : ℝ} : ‖(beside b hb r .cw).c - v‖ ^ 2 - ‖(beside b hb r .ccw).c - v‖ ^ 2 = 4 * r * ((v - b) / toward hb).im := by
  have hc : ∀ dir, (beside b hb r dir).c - v = (b - v) + dir.sign * r * I * toward hb := fun dir => by simp only [beside]; ring
  have hu : toward hb * (starRingEnd ℂ) (toward hb) = 1 := by
    rw [Complex.mul_conj, Complex.normSq_eq_norm_sq, toward_unit]; norm_num
  have h0 : toward hb ≠ 0 := by rw [← norm_ne_zero_iff, toward_unit]; norm_num
  have hd : (v - b) / toward hb = -((b - v) * (starRingEnd ℂ) (toward hb)) := by
    rw [div_eq_iff h0]
    linear_combination (b - v) * hu
  rw [hc, hc, hd]
  simp only [Dir.sign]
  rw [show (b - v) + ((-1 : ℝ) : ℂ) * r * I * toward hb = (b - v) - (r * I * toward hb) by push_cast; ring,
    show (b - v) + ((1 : ℝ) : ℂ) * r * I * toward hb = (b - v) + (r * I * toward hb) by push_cast; ring]
  generalize b - v = u
  generalize toward hb = h
  simp only [← Complex.normSq_eq_norm_sq]
  rw [Complex.normSq_add, Complex.normSq_sub]
  simp only [map_mul, Complex.conj_ofReal, Complex.conj_I, Complex.mul_re, Complex.mul_im, Complex.ofReal_re, Complex.ofReal_im, Complex.I_re, Complex.I_im,
    Complex.neg_re, Complex.neg_im, Complex.conj_re, Complex.conj_im]
  ring

/-- **C191.**  The heading at which the first corner is reached is one that a turn and a straight line lead to; the turn is to the side on
which the corner is, unless it is inside the circle there. -/
theorem C191_heading {b v : ℂ} {hb r : ℝ} (hr : 0 < r) (hv : 1e-9 < ‖b - v‖) :
    ∃ h dir a l, taskHeading b hb v r = some h ∧ (0 ≤ a ∧ a < 2 * Real.pi) ∧ 0 ≤ l ∧
      Pose.fly ⟨b, toward hb⟩ r [.turn dir a, .straight l] = ⟨v, toward (h + Real.pi)⟩ ∧
      (0 < ((v - b) / toward hb).im → r ≤ ‖v - (Pose.circle ⟨b, toward hb⟩ .ccw r).c‖ → dir = .ccw) ∧
      (((v - b) / toward hb).im < 0 → r ≤ ‖v - (Pose.circle ⟨b, toward hb⟩ .cw r).c‖ → dir = .cw) := by
  have h0 : 0 < ‖b - v‖ := lt_trans (by norm_num) hv
  have hns := tangent_some (b := b) (f := v) (hb := hb) hr.le
  have hside := side_nearer (b := b) (v := v) (hb := hb) (r := r)
  simp only [← beside_eq]
  rw [norm_sub_rev v, norm_sub_rev v]
  have n1 := norm_nonneg ((beside b hb r .cw).c - v)
  have n2 := norm_nonneg ((beside b hb r .ccw).c - v)
  unfold taskHeading
  rw [if_neg (not_le.2 hv)]
  simp only
  rw [if_neg hns]
  split
  · rename_i hc
    obtain ⟨a, ha, hf⟩ := tangent_flies (dir := .ccw) hr h0 (by rcases hc with hc | hc <;> exact hc.1)
    refine ⟨_, .ccw, a, _, rfl, ha, Real.sqrt_nonneg _, hf, fun _ _ => rfl, ?_⟩
    intro hi h1
    exfalso
    have hneg : 4 * r * ((v - b) / toward hb).im < 0 := mul_neg_of_pos_of_neg (by linarith) hi
    rcases hc with hc | hc
    · nlinarith [hc.2]
    · linarith [hc.2]
  · rename_i hc
    have h1 : r ≤ ‖(beside b hb r .cw).c - v‖ := by
      by_contra hlt
      rw [not_le] at hlt
      apply hc
      right
      refine ⟨?_, hlt⟩
      by_contra h2
      exact hns ⟨hlt, not_le.1 h2⟩
    obtain ⟨a, ha, hf⟩ := tangent_flies (dir := .cw) hr h0 h1
    refine ⟨_, .cw, a, _, rfl, ha, Real.sqrt_nonneg _, hf, ?_, fun _ _ => rfl⟩
    intro hi h2
    exfalso
    have hpos : 0 < 4 * r * ((v - b) / toward hb).im := mul_pos (by linarith) hi
    exact hc (Or.inl ⟨h2, by nlinarith⟩)

/-- **C191.**  The route to the first corner is no longer than a turn and a straight line to it, up to half a metre, and ends in the same
direction. -/
theorem C191_first {b v : ℂ} {hb r sep : ℝ} (hr : 1 ≤ r) (hs : 0 < sep) (hv : 1e-9 < ‖b - v‖) (h1 : 2 * (‖v - b‖ + r) < 2147483647)
    (h7 : 7 * r < 2147483648 * sep) :
    ∃ h dir a l ws w, (0 ≤ a ∧ a < 2 * Real.pi) ∧ 0 ≤ l ∧ Pose.fly ⟨b, toward hb⟩ r [.turn dir a, .straight l] = ⟨v, toward h⟩ ∧
      dubins b hb v h r sep = .ok (some ws) ∧ toCorner false b hb v r sep = .ok (ws.map (·.pos)) ∧ ws.getLast? = some w ∧ ‖w.pos - v‖ ≤ 5 / 2 + 0.005 * r ∧
      (Distinct ⟨b, toward hb⟩ ⟨v, toward h⟩ r → total ws ≤ r * a + l + 1 / 2) := by
  obtain ⟨h, dir, a, l, ht, ha, hl, hf, _⟩ := C191_heading (hb := hb) (lt_of_lt_of_le one_pos hr) hv
  obtain ⟨ws, w, hd, hw, hn⟩ := C171_arrives b hb v (h + Real.pi) hr hs h1 h7
  refine ⟨h + Real.pi, dir, a, l, ws, w, ha, hl, hf, hd, ?_, hw, hn, ?_⟩
  · unfold toCorner
    rw [if_neg (by simp only [Bool.false_eq_true, false_or]; linarith), ht]
    simp only
    unfold direct
    rw [if_neg (by simp only [Bool.false_eq_true, false_or]; linarith), hd]
    rfl
  · intro hD
    obtain ⟨ws', he, H⟩ := C172_same_partial hr hs hD hd
    simp only [Option.some.injEq] at he
    subst he
    have := H dir a l 0 ha hl ⟨le_rfl, by have := Real.pi_pos; linarith⟩ (by
      rw [← hf]
      simp only [Pose.fly, List.foldl_cons, List.foldl_nil, Pose.leg]
      rw [Pose.ext_iff]
      simp [Pose.turned])
    simpa [Leg.length] using this

/-! ### The corners and the rest -/

theorem finalHeading_two {us : List ℂ} {y z : ℂ} (h : 10 < ‖z - y‖) : finalHeading (us ++ [y, z]) = Real.pi / 2 - bearing (z - y) := by
  have key : ∀ (p q : ℂ) (rest : List ℂ), p :: q :: rest = us ++ [y, z] → finalHeading (p :: q :: rest) = Real.pi / 2 - bearing (z - y) := by
    intro p q rest hl
    have hz : (q :: rest).getLast (by simp) = z := by
      have h1 : (p :: q :: rest).getLast (by simp) = z := by
        simp only [hl]
        rw [List.getLast_append_of_ne_nil _ (by simp)]
        rfl
      rwa [List.getLast_cons (by simp)] at h1
    have hf : (p :: q :: rest).reverse.find? (fun x => decide (10 < ‖z - x‖)) = some y := by
      rw [hl, List.reverse_append]
      simp [h]
    unfold finalHeading
    simp only [hz, hf, Option.getD_some]
  cases us with
  | nil => exact key y z [] rfl
  | cons p us => cases us with
    | nil => exact key p y [z] rfl
    | cons q us => exact key p q (us ++ [y, z]) rfl

theorem toward_bearing {d : ℂ} (h : d ≠ 0) : toward (Real.pi / 2 - bearing d) = d / ‖d‖ := by
  unfold toward
  rw [show Real.pi / 2 - (Real.pi / 2 - bearing d) = bearing d by ring, bearing_unit h]

theorem middle_all {v : ℂ} {vs : List ℂ} {e : ℂ} (h2 : vs ≠ []) (h : ((v :: vs) ++ [e]).IsChain (fun x y => 1 ≤ ‖x - y‖)) :
    middle (overCorners (v :: vs) e) = v :: vs := by
  obtain ⟨q, rest, rfl⟩ := List.exists_cons_of_ne_nil h2
  have ho : overCorners (v :: q :: rest) e = v :: (q :: rest ++ [e]) := rfl
  unfold middle
  rw [ho, thin_cons, keep_all v (q :: rest ++ [e]) h]
  simp only [List.take_succ_cons, List.take_zero, List.drop_succ_cons, List.drop_zero]
  rw [List.dropLast_append_of_ne_nil (by simp)]
  simp

/-- **C191.**  A route over two corners or more that are apart: waypoints of a path to the first corner that a vehicle with the turn radius
can fly, in the direction in which a turn and a straight line reach it; the corners in their order; and waypoints of a path the vehicle can
fly that begins at the last corner in the direction from the one before and ends at the place and in the direction asked for. -/
theorem C191_route_partial {b v : ℂ} {vs us : List ℂ} {y z e : ℂ} {hb he r sep : ℝ} (hr : 1 ≤ r) (hs : 0 < sep) (hv : 1e-9 < ‖b - v‖)
    (hvs : v :: vs = us ++ [y, z]) (hc : ((v :: vs) ++ [e]).IsChain (fun x y => 1 ≤ ‖x - y‖)) (h10 : 10 < ‖z - y‖)
    (h1 : 2 * (‖v - b‖ + r) < 2147483647) (h3 : 2 * (‖e - z‖ + r) < 2147483647) (h7 : 7 * r < 2147483648 * sep) :
    ∃ w1 w3 x1 x3, cornered false b hb (v :: vs) e he r sep = .ok (w1 ++ (v :: vs) ++ w3) ∧
      (w1.getLast? = some x1 ∧ ‖x1 - v‖ ≤ 5 / 2 + 0.005 * r) ∧ (w3.getLast? = some x3 ∧ ‖x3 - e‖ ≤ 5 / 2 + 0.005 * r) ∧
      (∃ dir a l d, (0 ≤ a ∧ a < 2 * Real.pi) ∧ 0 ≤ l ∧ Pose.fly ⟨b, toward hb⟩ r [.turn dir a, .straight l] = ⟨v, d⟩ ∧
        (Distinct ⟨b, toward hb⟩ ⟨v, d⟩ r → ∃ path, Flyable path ∧ (Pose.fly ⟨b, toward hb⟩ r path).to_ = d ∧
          ‖(Pose.fly ⟨b, toward hb⟩ r path).at_ - v‖ ≤ 1 ∧ ∀ x ∈ w1, ∃ y, Passes ⟨b, toward hb⟩ r path y ∧ ‖x - y‖ ≤ 2)) ∧
      (Distinct ⟨z, (z - y) / ‖z - y‖⟩ ⟨e, toward he⟩ r → ∃ path, Flyable path ∧ (Pose.fly ⟨z, (z - y) / ‖z - y‖⟩ r path).to_ = toward he ∧
        ‖(Pose.fly ⟨z, (z - y) / ‖z - y‖⟩ r path).at_ - e‖ ≤ 1 ∧ ∀ x ∈ w3, ∃ x', Passes ⟨z, (z - y) / ‖z - y‖⟩ r path x' ∧ ‖x - x'‖ ≤ 2) := by
  obtain ⟨h, dir, a, l, ws, w, ha, hl, hf, hd, hto, hw, hn, _⟩ := C191_first (hb := hb) hr hs hv h1 h7
  have hzy : z - y ≠ 0 := by rw [← norm_ne_zero_iff]; linarith
  have hne : vs ≠ [] := by
    rintro rfl
    have := congrArg List.length hvs
    simp at this
  obtain ⟨w3, x3, hd3, hl3, hn3, hp3⟩ := (C171_direct z (Real.pi / 2 - bearing (z - y)) e he (r := r) (sep := sep)).2 hr hs h3 h7
  rw [toward_bearing hzy] at hp3
  refine ⟨ws.map (·.pos), w3, w.pos, x3, ?_, ⟨by rw [List.getLast?_map, hw]; rfl, hn⟩, ⟨hl3, hn3⟩, ?_, hp3⟩
  · unfold cornered
    simp only
    rw [hto]
    simp only [Outcome.bind]
    rw [if_neg (by simp only [List.map_eq_nil_iff]; rintro rfl; simp at hw)]
    simp only [Bool.false_eq_true, if_false]
    rw [middle_all hne hc, hvs, finalHeading_two h10]
    have hlast : (ws.map (·.pos) ++ (us ++ [y, z])).getLastD b = z := by
      simp [List.getLastD_eq_getLast?]
    rw [hlast, hd3]
  · refine ⟨dir, a, l, toward h, ha, hl, hf, ?_⟩
    intro hD
    obtain ⟨path, p1, p2, p3, p4, _⟩ := C171_route_partial hr hs hD hd
    refine ⟨path, p1, p2, p3, ?_⟩
    intro x hx
    obtain ⟨u, hu, rfl⟩ := List.mem_map.1 hx
    exact p4 u hu

/-- **C191.**  If neither heading is to be used the route is straight over the corners. -/
theorem C191_straight (b : ℂ) (hb : ℝ) (v : ℂ) (vs : List ℂ) (e : ℂ) (he r sep : ℝ) (h2 : vs ≠ []) :
    cornered true b hb (v :: vs) e he r sep = .ok ([b, v] ++ (v :: vs) ++ [e] ++ [e, e]) := by
  obtain ⟨q, rest, rfl⟩ := List.exists_cons_of_ne_nil h2
  have hl : (q :: (rest ++ [e])).getLast?.getD b = e := by
    rw [← List.cons_append, List.getLast?_append]
    rfl
  unfold cornered toCorner direct
  simp [Outcome.bind, overCorners, hl]

/-- **C191.**  The same over an only corner, which is there three times. -/
theorem C191_straight_only (b : ℂ) (hb : ℝ) (v e : ℂ) (he r sep : ℝ) :
    cornered true b hb [v] e he r sep = .ok ([b, v] ++ [v, v, e] ++ [e, e]) := by
  unfold cornered toCorner direct
  simp [Outcome.bind, overCorners]

/-- **C191 fails** for a vehicle that is at the first corner already: the route there ends in the direction against its own, for which it
has to turn round. -/
theorem C191_at_violated {b v : ℂ} {hb r sep : ℝ} (hr : 1 ≤ r) (hs : 0 < sep) (hv : ‖b - v‖ ≤ 1e-9) (h1 : 2 * (‖v - b‖ + r) < 2147483647)
    (h7 : 7 * r < 2147483648 * sep) :
    ∃ h ws, toward h = -toward hb ∧ dubins b hb v h r sep = .ok (some ws) ∧ toCorner false b hb v r sep = .ok (ws.map (·.pos)) := by
  obtain ⟨ws, w, hd, hw, hn⟩ := C171_arrives b hb v (hb + Real.pi) hr hs h1 h7
  refine ⟨hb + Real.pi, ws, ?_, hd, ?_⟩
  · unfold toward
    rw [show ((Real.pi / 2 - (hb + Real.pi) : ℝ) : ℂ) * I = ((Real.pi / 2 - hb : ℝ) : ℂ) * I - Real.pi * I by push_cast; ring, Complex.exp_sub,
      Complex.exp_pi_mul_I]
    ring
  · unfold toCorner
    rw [if_neg (by simp only [Bool.false_eq_true, false_or]; linarith)]
    unfold taskHeading
    rw [if_pos hv]
    simp only
    unfold direct
    rw [if_neg (by simp only [Bool.false_eq_true, false_or]; linarith), hd]
    rfl

example : ∃ h ws, toward h = -toward 0 ∧ dubins 0 0 0 h 100 10 = .ok (some ws) ∧ toCorner false 0 0 0 100 10 = .ok (ws.map (·.pos)) :=
  C191_at_violated (by norm_num) (by norm_num) (by norm_num) (by norm_num) (by norm_num)

/-- **C191.**  After an only corner the route does not depend on how the corner was reached: it is one that begins northwards. -/
theorem C191_only {v e : ℂ} {he r sep : ℝ} (hr : 1 ≤ r) (hs : 0 < sep) (hve : 1 ≤ ‖v - e‖) (h3 : 2 * (‖e - v‖ + r) < 2147483647)
    (h7 : 7 * r < 2147483648 * sep) :
    ∃ w3, dubins v 0 e he r sep = .ok (some w3) ∧ ∀ b hb, 1e-9 < ‖b - v‖ → 2 * (‖v - b‖ + r) < 2147483647 →
      ∃ w1, cornered false b hb [v] e he r sep = .ok (w1 ++ [v] ++ w3.map (·.pos)) := by
  obtain ⟨w3, x, hd, _⟩ := C171_arrives v 0 e he hr hs h3 h7
  refine ⟨w3, hd, ?_⟩
  intro b hb hbv h1
  obtain ⟨h, dir, a, l, ws, w, ha, hl, hf, _, hto, hw, _⟩ := C191_first (hb := hb) hr hs hbv h1 h7
  refine ⟨ws.map (·.pos), ?_⟩
  have hm : middle (overCorners [v] e) = [v] := by
    unfold middle
    simp only [overCorners, thin_cons, keep, if_neg (not_lt.2 hve)]
    simp
  unfold cornered
  simp only
  rw [hto]
  simp only [Outcome.bind]
  rw [if_neg (by simp only [List.map_eq_nil_iff]; rintro rfl; simp at hw)]
  simp only [Bool.false_eq_true, if_false]
  rw [hm]
  have hlast : (ws.map (·.pos) ++ [v]).getLastD b = v := by simp [List.getLastD_eq_getLast?]
  simp only [hlast, finalHeading]
  unfold direct
  rw [if_neg (by simp only [Bool.false_eq_true, false_or]; linarith), hd]
  rfl

theorem taskHeading_south : ∃ h, taskHeading (1000 * I) Real.pi 0 100 = some h ∧ toward (h + Real.pi) = -I := by
  have hn : ‖(1000 * I : ℂ) - 0‖ = 1000 := by simp
  have hc : ∀ dir, (beside (1000 * I) Real.pi 100 dir).c - 0 = 1000 * I + dir.sign * 100 := by
    intro dir
    simp only [beside, toward_pi]
    push_cast
    linear_combination (-(dir.sign * 100 : ℂ)) * I_mul_I
  have hq : ∀ dir, ‖(beside (1000 * I) Real.pi 100 dir).c - 0‖ ^ 2 = 1000 ^ 2 + 100 ^ 2 := by
    intro dir
    rw [hc, ← Complex.normSq_eq_norm_sq, Complex.normSq_apply]
    cases dir <;> simp [Dir.sign] <;> norm_num
  have heq : ‖(beside (1000 * I) Real.pi 100 .cw).c - 0‖ = ‖(beside (1000 * I) Real.pi 100 .ccw).c - 0‖ := by
    rw [← Real.sqrt_sq (norm_nonneg ((beside (1000 * I) Real.pi 100 .cw).c - 0)), hq, ← hq .ccw, Real.sqrt_sq (norm_nonneg _)]
  have hbig : (100 : ℝ) ≤ ‖(beside (1000 * I) Real.pi 100 .cw).c - 0‖ := by
    have := hq .cw
    nlinarith [norm_nonneg ((beside (1000 * I) Real.pi 100 .cw).c - 0)]
  refine ⟨tangentHeading (1000 * I) Real.pi 0 100 .cw, ?_, ?_⟩
  · unfold taskHeading
    rw [if_neg (by rw [hn]; norm_num)]
    simp only
    rw [if_neg (fun h => absurd h.1 (not_lt.2 hbig)), if_neg]
    rintro (h | h)
    · rw [heq] at h; exact lt_irrefl _ h.2
    · exact absurd h.2 (not_lt.2 hbig)
  · obtain ⟨a, _, hf⟩ := tangent_flies (dir := .cw) (b := 1000 * I) (f := 0) (hb := Real.pi) (r := 100) (by norm_num) (by rw [hn]; norm_num) hbig
    rw [hq, show ((1000 : ℝ) ^ 2 + 100 ^ 2 - 100 ^ 2) = 1000 ^ 2 by norm_num, Real.sqrt_sq (by norm_num)] at hf
    simp only [Pose.fly, List.foldl_cons, List.foldl_nil, Pose.leg, Pose.on, Pose.turned] at hf
    rw [Pose.ext_iff] at hf
    obtain ⟨f1, f2⟩ := hf
    simp only [toward_pi] at f1 f2
    rw [← f2]
    simp only [Dir.sign] at f1 ⊢
    push_cast at f1 ⊢
    have h0 : (1000 + 100 * I : ℂ) ≠ 0 := by
      intro h
      have := congrArg Complex.re h
      norm_num at this
    apply mul_right_cancel₀ h0
    linear_combination f1 + (0 : ℂ) * I_mul_I

/-- **C191.**  An only corner straight ahead and the end straight ahead of it: the vehicle reaches the corner flying south, and the route
from there is one for a vehicle that flies north. -/
theorem C191_only_violated {sep : ℝ} (hs : 0 < sep) (h7 : 700 < 2147483648 * sep) :
    (Pose.fly ⟨1000 * I, toward Real.pi⟩ 100 [.straight 1000] = ⟨0, -I⟩ ∧ Pose.fly ⟨0, -I⟩ 100 [.straight 1000] = ⟨-(1000 * I), toward Real.pi⟩) ∧
    (∃ h, taskHeading (1000 * I) Real.pi 0 100 = some h ∧ toward (h + Real.pi) = -I) ∧
    ∃ w1 w3 path, cornered false (1000 * I) Real.pi [0] (-(1000 * I)) Real.pi 100 sep = .ok (w1 ++ [0] ++ w3) ∧ Flyable path ∧
      (Pose.fly ⟨0, I⟩ 100 path).to_ = toward Real.pi ∧ ‖(Pose.fly ⟨0, I⟩ 100 path).at_ - -(1000 * I)‖ ≤ 1 ∧
      ∀ x ∈ w3, ∃ y, Passes ⟨0, I⟩ 100 path y ∧ ‖x - y‖ ≤ 2 := by
  have hn : ‖(-(1000 * I) : ℂ) - 0‖ = 1000 := by simp
  refine ⟨⟨?_, ?_⟩, taskHeading_south, ?_⟩
  · simp only [Pose.fly, List.foldl_cons, List.foldl_nil, Pose.leg, Pose.on, toward_pi]
    rw [Pose.ext_iff]
    simp
  · simp only [Pose.fly, List.foldl_cons, List.foldl_nil, Pose.leg, Pose.on, toward_pi]
    rw [Pose.ext_iff]
    simp
  · obtain ⟨w3, hd, H⟩ := C191_only (v := 0) (e := -(1000 * I)) (he := Real.pi) (r := 100) (sep := sep) (by norm_num) hs (by simp) (by rw [hn]; norm_num)
      (by linarith)
    obtain ⟨w1, h1⟩ := H (1000 * I) Real.pi (by simp; norm_num) (by simp; norm_num)
    obtain ⟨path, p1, p2, p3, p4, _⟩ := C171_route_partial (by norm_num) hs (distinct_of 0 0 (-(1000 * I)) Real.pi (by norm_num) (by rw [hn]; norm_num)) hd
    rw [toward_zero] at p2 p3 p4
    refine ⟨w1, w3.map (·.pos), path, h1, p1, p2, p3, ?_⟩
    intro x hx
    obtain ⟨u, hu, rfl⟩ := List.mem_map.1 hx
    exact p4 u hu

/-- **C191.**  A last leg of ten metres or less is not seen: the route leaves a corner reached northwards in nearly the direction of the leg
before, to the east. -/
theorem C191_leg_violated : middle (overCorners [0, 100, 100 + 5 * I] 1000) = [0, 100, 100 + 5 * I] ∧
    toward (finalHeading [0, 100, 100 + 5 * I]) = (100 + 5 * I) / ‖(100 + 5 * I : ℂ)‖ ∧ toward (finalHeading [0, 100, 100 + 5 * I]) ≠ I := by
  have n1 : ‖(100 + 5 * I : ℂ) - 100‖ = 5 := by simp
  have n2 : (100 : ℝ) ≤ ‖(100 + 5 * I : ℂ)‖ := by
    have := Complex.abs_re_le_norm (100 + 5 * I)
    simpa using this
  have n0 : (100 + 5 * I : ℂ) ≠ 0 := by rw [← norm_ne_zero_iff]; linarith
  have hf : toward (finalHeading [0, 100, 100 + 5 * I]) = (100 + 5 * I) / ‖(100 + 5 * I : ℂ)‖ := by
    have h1 : finalHeading [0, 100, 100 + 5 * I] = Real.pi / 2 - bearing (100 + 5 * I) := by
      have e1 : ([0, 100, 100 + 5 * I] : List ℂ).reverse.find? (fun x => decide (10 < ‖(100 + 5 * I) - x‖)) = some 0 := by
        have d1 : ¬ (10 < ‖(100 + 5 * I : ℂ) - (100 + 5 * I)‖) := by simp
        have d2 : ¬ (10 < ‖(100 + 5 * I : ℂ) - 100‖) := by rw [n1]; norm_num
        have d3 : 10 < ‖(100 + 5 * I : ℂ) - 0‖ := by rw [sub_zero]; linarith
        simp only [List.reverse_cons, List.reverse_nil, List.nil_append, List.cons_append, List.find?_cons, decide_eq_false d1, decide_eq_false d2, decide_eq_true d3]
      show Real.pi / 2 - bearing ((100 + 5 * I) - (([0, 100, 100 + 5 * I] : List ℂ).reverse.find? (fun x => decide (10 < ‖(100 + 5 * I) - x‖))).getD 0) = _
      rw [e1]
      simp
    rw [h1, toward_bearing n0]
  refine ⟨?_, hf, ?_⟩
  · apply middle_all (by simp)
    simp only [List.cons_append, List.nil_append, List.isChain_cons_cons, List.isChain_singleton, and_true]
    refine ⟨by norm_num, ?_, ?_⟩
    · rw [norm_sub_rev, n1]; norm_num
    · have := Complex.abs_re_le_norm ((100 + 5 * I) - 1000)
      have h2 : ((100 + 5 * I : ℂ) - 1000).re = -900 := by simp; norm_num
      rw [h2] at this
      norm_num at this
      linarith
  · rw [hf]
    intro h
    have hre := congrArg Complex.re h
    rw [Complex.div_ofReal_re] at hre
    simp at hre
    exact n0 hre

/-! ### A vehicle with a radius of 100 m that flies north, two corners to the east of it, and an end north of the second -/

/-- `C191_route_partial`, `C191_first`, `C191_heading`: there is a route over the corners. -/
example : ∃ w1 w3 x3, cornered false 0 0 [500, 1000] (1000 + 1000 * I) 0 100 50 = .ok (w1 ++ [500, 1000] ++ w3) ∧ w3.getLast? = some x3 ∧
    ‖x3 - (1000 + 1000 * I)‖ ≤ 3 ∧ ∃ path, Flyable path ∧ (Pose.fly ⟨1000, 1⟩ 100 path).to_ = toward 0 ∧ ‖(Pose.fly ⟨1000, 1⟩ 100 path).at_ - (1000 + 1000 * I)‖ ≤ 1 := by
  have n1 : ‖(1000 : ℂ) - 500‖ = 500 := by norm_num
  have n2 : ‖(1000 + 1000 * I : ℂ) - 1000‖ = 1000 := by simp
  have n3 : (1000 : ℂ) - 500 = 500 := by norm_num
  obtain ⟨w1, w3, x1, x3, h1, _, ⟨h2, h3⟩, _, h4⟩ := C191_route_partial (b := 0) (v := 500) (vs := [1000]) (us := []) (y := 500) (z := 1000)
    (e := 1000 + 1000 * I) (hb := 0) (he := 0) (r := 100) (sep := 50) (by norm_num) (by norm_num) (by norm_num) rfl
    (by
      simp only [List.cons_append, List.nil_append, List.isChain_cons_cons, List.isChain_singleton, and_true]
      refine ⟨by rw [norm_sub_rev, n1]; norm_num, by rw [norm_sub_rev, n2]; norm_num⟩)
    (by rw [n1]; norm_num) (by norm_num) (by rw [n2]; norm_num) (by norm_num)
  have hd : ((1000 : ℂ) - 500) / ((‖(1000 : ℂ) - 500‖ : ℝ) : ℂ) = 1 := by rw [n1, n3]; norm_num
  have ht : toward (Real.pi / 2) = 1 := by unfold toward; simp
  rw [hd, ← ht] at h4
  obtain ⟨path, p1, p2, p3, _⟩ := h4 (distinct_of 1000 (Real.pi / 2) (1000 + 1000 * I) 0 (by norm_num) (by rw [n2]; norm_num))
  rw [ht] at p2 p3
  exact ⟨w1, w3, x3, h1, h2, by norm_num at h3; linarith, path, p1, p2, p3⟩

/-- `C191_heading`: the corner is to the right, so the turn is to the right. -/
example : ∃ h a l, taskHeading 0 0 500 100 = some h ∧ (0 ≤ a ∧ a < 2 * Real.pi) ∧ 0 ≤ l ∧
    Pose.fly ⟨0, toward 0⟩ 100 [.turn .cw a, .straight l] = ⟨500, toward (h + Real.pi)⟩ := by
  obtain ⟨h, dir, a, l, h1, h2, h3, h4, _, h6⟩ := C191_heading (b := 0) (v := 500) (hb := 0) (r := 100) (by norm_num) (by norm_num)
  have := h6 (by rw [toward_zero]; simp) (by rw [toward_zero]; simp [Pose.circle, Dir.sign]; rw [mul_assoc, I_mul_I]; norm_num)
  subst this
  exact ⟨h, a, l, h1, h2, h3, h4⟩

/-- `C191_short`: a place half a metre from the one before is left out. -/
example : thin [0, 1 / 2, 10] = [0, 10] := by
  rw [thin_cons]
  norm_num [keep]

/-- `C191_only`: an only corner at the beginning of the axes. -/
example : ∃ w3, dubins 0 0 1000 0 100 50 = .ok (some w3) :=
  (C191_only (v := 0) (e := 1000) (he := 0) (r := 100) (sep := 50) (by norm_num) (by norm_num) (by norm_num) (by norm_num) (by norm_num)).imp fun _ h => h.1

end Verif.Dubins
