import Verif.Dubins.Shortest

/-!
# There is a route, and it arrives (C171)
-/

namespace Verif.Dubins

open Complex

theorem turn_ok (s e c : ℂ) {len r sep : ℝ} (dir : Dir) (hr : 0 < r) (hs : 0 < sep) (h : len < 2147483648 * sep) :
    ∃ ws, turnWays s e len c r dir sep = .ok ws := by
  rcases le_or_gt len sep with hl | hl
  · exact ⟨_, turnWays_short hl⟩
  · refine (C173_undefined s e c dir hr hs (by linarith)).2 ?_
    rw [div_lt_iff₀ hs]; exact h

theorem snap_range {star a : ℝ} (h1 : -1e-9 ≤ star ∧ star < 2 * Real.pi) (h2 : -1e-9 ≤ a ∧ a < 2 * Real.pi) : -1e-9 ≤ snap star a ∧ snap star a < 2 * Real.pi := by
  rcases snap_spec star a with h | ⟨h, _⟩ <;> rw [h] <;> assumption

theorem angle_lt {a r sep : ℝ} (hr : 0 < r) (h : 7 * r < 2147483648 * sep) (ha : a ≤ 2 * Real.pi + 1e-9) : a * r < 2147483648 * sep := by
  have hp := Real.pi_lt_d2
  norm_num at ha hp
  have : a ≤ 7 := by linarith
  have := mul_le_mul_of_nonneg_right this hr.le
  linarith

/-- The tangents of a path that is laid out. -/
theorem cscShape_tangents {b e : ℂ} {c1 c2 c : Circle} {d least : ℤ} {s : Shape} {r : ℝ} (hr : 1 ≤ r) (h1 : c1.r = r) (h2 : c2.r = r)
    (hl : iRound (r + r) = .ok least) (h : cscShape b e c1 c2 d least = (c, some s)) : c.r = r ∧ (c.dir ≠ c2.dir → 1 ≤ (d : ℝ) ∧ 2 * r ≤ d + 1 / 2) := by
  obtain ⟨_, hlr⟩ := iRound_spec (by linarith) hl
  rw [abs_le] at hlr
  obtain ⟨rot, _, hc, hg, _⟩ := cscShape_some h
  refine ⟨by rcases hc with ⟨_, rfl, _⟩ | ⟨_, rfl, _⟩ <;> assumption, fun hd => ?_⟩
  have : least ≤ d := by
    by_contra hc
    exact hg ⟨by omega, hd⟩
  have : (least : ℝ) ≤ d := by exact_mod_cast this
  exact ⟨by linarith, by linarith⟩

theorem csc_ok {b e : ℂ} {sep r : ℝ} {c1 c2 : Circle} (hr : 1 ≤ r) (hs : 0 < sep) (h1 : c1.r = r) (h2 : c2.r = r) (hD : ‖c2.c - c1.c‖ < 2147483647)
    (h2r : 2 * r < 2147483647) (h7 : 7 * r < 2147483648 * sep) : ∃ c x, csc b e sep c1 c2 = .ok (c, x) ∧ (c = c1 ∨ c = c2) := by
  have hr0 : 0 < r := by linarith
  obtain ⟨d, hd⟩ := iRound_total (norm_nonneg (c2.c - c1.c)) hD
  obtain ⟨least, hl⟩ := iRound_total (x := r + r) (by linarith) (by linarith)
  obtain ⟨hd0, _⟩ := iRound_spec (norm_nonneg _) hd
  unfold csc
  rw [hd, h1, h2, hl]
  simp only [Outcome.bind_ok]
  rcases hsh : cscShape b e c1 c2 d least with ⟨c, _ | s⟩
  · refine ⟨c, none, rfl, ?_⟩
    unfold cscShape at hsh
    by_cases hd : |(d : ℝ)| ≤ 0.01
    · simp only [if_pos hd] at hsh
      rw [if_neg (by simp)] at hsh
      simp at hsh
    · simp only [if_neg hd] at hsh
      split at hsh
      · simp only [Prod.mk.injEq] at hsh; exact Or.inl hsh.1.symm
      · simp at hsh
  · obtain ⟨hcr, hx⟩ := cscShape_tangents hr h1 h2 hl hsh
    obtain ⟨rot, _, hc, hg, p1, p2, as, bs, ht, hs'⟩ := cscShape_some hsh
    rw [hcr] at ht
    obtain ⟨_, _, _, _, ra, rb⟩ := tangents_spec hr0 (by exact_mod_cast hd0) hx ht
    have b1 : s.l1 < 2147483648 * sep := by
      rw [hs', hcr]
      exact angle_lt hr0 h7 (sweep_range _ (bearing_range _) (snap_range ra (bearing_range _))).2
    have b3 : s.l3 < 2147483648 * sep := by
      rw [hs', h2]
      exact angle_lt hr0 h7 (sweep_range _ (snap_range rb (bearing_range _)) (bearing_range _)).2
    have o1 : ∃ w, (if 1 ≤ s.l1 then turnWays b s.t1 s.l1 c.c c.r c.dir sep else .ok []) = .ok w := by
      split
      · exact turn_ok _ _ _ _ (by rw [hcr]; exact hr0) hs b1
      · exact ⟨_, rfl⟩
    have o3 : ∃ w, (if 1 ≤ s.l3 then turnWays s.t2 e s.l3 c2.c c2.r c2.dir sep else .ok []) = .ok w := by
      split
      · exact turn_ok _ _ _ _ (by rw [h2]; exact hr0) hs b3
      · exact ⟨_, rfl⟩
    obtain ⟨w1, o1⟩ := o1
    obtain ⟨w3, o3⟩ := o3
    refine ⟨c, some (w1 ++ ⟨s.t2, s.l2⟩ :: w3), ?_, ?_⟩
    · simp only [cscWays]
      rw [o1, o3]
      rfl
    · rcases hc with ⟨_, h, _⟩ | ⟨_, h, _⟩
      · exact Or.inr h
      · exact Or.inl h

theorem ccc_ok {b e : ℂ} {sep r : ℝ} {c1 c2 : Circle} (hr : 1 ≤ r) (hs : 0 < sep) (h1 : c1.r = r) (h2 : c2.r = r) (h7 : 7 * r < 2147483648 * sep) :
    ∃ c x, ccc b e sep c1 c2 = .ok (c, x) ∧ (c = c1 ∨ c = c2) := by
  have hr0 : 0 < r := by linarith
  have hp := Real.pi_gt_three
  unfold ccc
  split
  · exact ⟨_, _, rfl, Or.inl rfl⟩
  · rcases hsh : cccShape b e c1 c2 with ⟨c, m, s⟩
    have hc : c = c1 ∨ c = c2 := by
      have := congrArg Prod.fst hsh
      simp only [cccShape] at this
      rw [← this]
      split <;> simp
    have hcr : c.r = r := by rcases hc with rfl | rfl <;> assumption
    have hlen : s.l1 < 2147483648 * sep ∧ s.l2 < 2147483648 * sep ∧ s.l3 < 2147483648 * sep := by
      have hs' := congrArg (fun x => x.2.2) hsh
      have hc' := congrArg Prod.fst hsh
      simp only [cccShape] at hs' hc'
      rw [hc', h1] at hs'
      have hg0 := Real.arccos_nonneg (‖c1.c - c2.c‖ / (4 * r))
      have hg1 : Real.arccos (‖c1.c - c2.c‖ / (4 * r)) ≤ Real.pi / 2 := Real.arccos_le_pi_div_two.2 (by positivity)
      generalize Real.arccos (‖c1.c - c2.c‖ / (4 * r)) = g at hs' hg0 hg1
      generalize (if ‖c2.c - c1.c‖ ≤ 0.01 then (1 : ℂ) else exp (bearing (c2.c - c1.c) * I)) = rot at hs'
      have hal := bearing_range ((b - c.c) / rot)
      have hbe := bearing_range ((e - c.c) / rot - (c2.c - c.c) / rot)
      generalize bearing ((b - c.c) / rot) = al at hs' hal
      generalize bearing ((e - c.c) / rot - (c2.c - c.c) / rot) = be at hs' hbe
      norm_num at hal hbe
      rw [← hs']
      refine ⟨?_, ?_, ?_⟩
      · cases c.dir <;> simp only <;> split <;> apply angle_lt hr0 h7 <;> norm_num <;> linarith
      · apply angle_lt hr0 h7; norm_num; linarith
      · cases c.dir <;> simp only <;> split <;> apply angle_lt hr0 h7 <;> norm_num <;> linarith
    obtain ⟨w1, o1⟩ := turn_ok b s.t1 c.c (r := c.r) c.dir (by rw [hcr]; exact hr0) hs hlen.1
    obtain ⟨w2, o2⟩ := turn_ok s.t1 s.t2 m (r := c1.r) c.dir.other (by rw [h1]; exact hr0) hs hlen.2.1
    obtain ⟨w3, o3⟩ := turn_ok s.t2 e c2.c (r := c1.r) c2.dir (by rw [h1]; exact hr0) hs hlen.2.2
    refine ⟨c, some (w1 ++ w2 ++ w3), ?_, hc⟩
    simp only [o1, o2, o3, Outcome.bind_ok]

/-- A route that ends where it is to. -/
def Arrives (e : ℂ) (r : ℝ) (ws : List Way) : Prop := ∃ w, ws.getLast? = some w ∧ ‖w.pos - e‖ ≤ 5 / 2 + 0.005 * r

theorem arrives_of {e : ℂ} {r : ℝ} {ws : List Way} (hr : 0 ≤ r) (h : ws.getLast?.map (·.pos) = some e) : Arrives e r ws := by
  rcases hg : ws.getLast? with _ | w
  · rw [hg] at h; simp at h
  · rw [hg] at h
    simp only [Option.map_some, Option.some.injEq] at h
    exact ⟨w, hg, by rw [h]; simp; positivity⟩

theorem cscShape_begin {b b' e : ℂ} {c1 c2 c : Circle} {d least : ℤ} {s : Shape} (h : cscShape b e c1 c2 d least = (c, some s)) :
    ∃ s', cscShape b' e c1 c2 d least = (c, some s') ∧ s'.t2 = s.t2 ∧ s'.l3 = s.l3 := by
  unfold cscShape at h ⊢
  by_cases hd : |(d : ℝ)| ≤ 0.01
  · simp only [if_pos hd] at h ⊢
    rw [if_neg (by simp)] at h
    rw [if_neg (by simp)]
    simp only [Prod.mk.injEq, Option.some.injEq] at h
    obtain ⟨rfl, rfl⟩ := h
    exact ⟨_, rfl, rfl, rfl⟩
  · simp only [if_neg hd] at h ⊢
    split at h
    · simp at h
    · rename_i hg
      simp only [Prod.mk.injEq, Option.some.injEq] at h
      obtain ⟨rfl, rfl⟩ := h
      rw [if_neg hg]
      exact ⟨_, rfl, rfl, rfl⟩

/-- Each circle is beside some pose. -/
theorem circle_pose (c : Circle) : ∃ p : Pose, ‖p.to_‖ = 1 ∧ p.circle c.dir c.r = c := by
  refine ⟨⟨c.c + c.r, c.dir.sign * I⟩, by simp [c.dir.sign_abs], ?_⟩
  ext1
  · simp only [Pose.circle]
    linear_combination (c.r : ℂ) * iI_sq c.dir
  · rfl
  · rfl

/-- Whatever the first circle is. -/
theorem csc_arrives {b : ℂ} {q : Pose} {d2 : Dir} {sep r : ℝ} {c1 c : Circle} {ws : List Way} (hq : ‖q.to_‖ = 1) (hr : 1 ≤ r) (h1 : c1.r = r)
    (h : csc b q.at_ sep c1 (q.circle d2 r) = .ok (c, some ws)) : Arrives q.at_ r ws := by
  have hr0 : 0 < r := by linarith
  unfold csc at h
  rw [Outcome.bind_eq_ok] at h
  obtain ⟨d, hd, h⟩ := h
  rw [Outcome.bind_eq_ok] at h
  obtain ⟨least, hl, h⟩ := h
  rw [h1] at hl
  obtain ⟨hd0, hdD⟩ := iRound_spec (norm_nonneg _) hd
  rcases hsh : cscShape b q.at_ c1 (q.circle d2 r) d least with ⟨c', _ | s⟩
  · rw [hsh] at h; simp at h
  rw [hsh] at h
  simp only at h
  rw [Outcome.bind_eq_ok] at h
  obtain ⟨ws', hw, h⟩ := h
  simp only [Outcome.ok.injEq, Prod.mk.injEq, Option.some.injEq] at h
  obtain ⟨rfl, rfl⟩ := h
  unfold cscWays at hw
  rw [Outcome.bind_eq_ok] at hw
  obtain ⟨w1, hw1, hw⟩ := hw
  rw [Outcome.bind_eq_ok] at hw
  obtain ⟨w3, hw3, hw⟩ := hw
  simp only [Outcome.ok.injEq] at hw
  rw [← hw]
  split at hw3
  · apply arrives_of hr0.le
    have := turnWays_last hw3
    rcases hg : w3.getLast? with _ | w
    · rw [hg] at this; simp at this
    · rw [hg] at this
      rw [List.getLast?_append, List.getLast?_cons, hg]; simpa using this
  · rename_i hc
    simp only [Outcome.ok.injEq] at hw3
    subst hw3
    refine ⟨⟨s.t2, s.l2⟩, by simp, ?_⟩
    simp only
    by_cases hdc : |(d : ℝ)| ≤ 0.01
    · -- the circles are at one place
      obtain ⟨rot, _, hcase, _, p1, p2, as, bs, ht, hs'⟩ := cscShape_some hsh
      obtain ⟨_, rfl, rfl⟩ := hcase.resolve_right (fun h => h.1 hdc)
      have hz : d = 0 := by
        by_contra hne
        have : (1 : ℝ) ≤ d := by exact_mod_cast (by omega : 1 ≤ d)
        rw [abs_of_pos (by linarith)] at hdc
        norm_num at hdc; linarith
      obtain ⟨_, e2, _, _, _, rb⟩ := tangents_spec (r := r) hr0 (by exact_mod_cast hd0) (fun h => absurd rfl h) ht
      rw [hz] at e2
      have hbe : (q.at_ - (q.circle d2 r).c) / 1 - ((q.circle d2 r).c - (q.circle d2 r).c) / 1 = (q.at_ - (q.circle d2 r).c) / 1 := by ring
      rw [hbe] at hs'
      have L3 : Turns r s.l3 (sweep d2 bs (bearing ((q.at_ - (q.circle d2 r).c) / 1))) := by rw [hs']; exact turns_last
      have ht2 : s.t2 = r * exp ((bs : ℂ) * I) * 1 + (q.circle d2 r).c := by rw [hs', e2]; push_cast; ring
      have hn : ‖((d2.sign : ℂ) * I * (exp ((bs : ℂ) * I) * 1))‖ = 1 := by
        rw [norm_mul, norm_mul, norm_mul, exp_unit, Complex.norm_real, Real.norm_eq_abs, d2.sign_abs]; simp
      have hto := turned_to (q := q) (dir := d2) (n := ⟨s.t2, d2.sign * I * (exp ((bs : ℂ) * I) * 1)⟩) (c := (q.circle d2 r).c) (a := bs) hr0 hq (rot := 1) (by simp)
        (by rw [ht2]; ring) rfl
      have h3 := turns_left (n := ⟨s.t2, d2.sign * I * (exp ((bs : ℂ) * I) * 1)⟩) (dir := d2) hn hr0 (sweep_range d2 rb (bearing_range _)) L3 hc
      rw [hto] at h3
      simp only [sub_self, add_zero] at h3
      rw [norm_sub_rev]
      linarith
    · have hd1 : 1 ≤ d := by
        by_contra hne
        have : d = 0 := by omega
        rw [this] at hdc
        norm_num at hdc
      obtain ⟨p, hp, hpc⟩ := circle_pose c1
      rw [h1] at hpc
      obtain ⟨s', hsh', t2', l3'⟩ := cscShape_begin (b' := p.at_) hsh
      rw [← hpc] at hsh' hd
      obtain ⟨_, a1, l, a2, hA1, hl0, hA2, t1, t2, e1, e2, L1, L2, L3, k1, k2⟩ := C171_straight hp hq hr hd hl hd1 hsh'
      rw [l3'] at L3
      rw [t2'] at t2
      have hu2 : ‖((p.turned c1.dir r a1).on l).to_‖ = 1 := turned_unit hp c1.dir r a1
      have h3 := turns_left (dir := d2) hu2 hr0 hA2 L3 hc
      calc ‖s.t2 - q.at_‖ = ‖(s.t2 - ((p.turned c1.dir r a1).on l).at_) + -((((p.turned c1.dir r a1).on l).turned d2 r a2).at_ - ((p.turned c1.dir r a1).on l).at_) +
            ((((p.turned c1.dir r a1).on l).turned d2 r a2).at_ - q.at_)‖ := by congr 1; ring
        _ ≤ ‖s.t2 - ((p.turned c1.dir r a1).on l).at_‖ + ‖-((((p.turned c1.dir r a1).on l).turned d2 r a2).at_ - ((p.turned c1.dir r a1).on l).at_)‖ +
            ‖(((p.turned c1.dir r a1).on l).turned d2 r a2).at_ - q.at_‖ := norm_add₃_le
        _ ≤ 5 / 2 + 0.005 * r := by rw [norm_neg]; linarith

theorem ccc_arrives {b e : ℂ} {sep r : ℝ} {c1 c2 c : Circle} {ws : List Way} (hr : 0 ≤ r) (h : ccc b e sep c1 c2 = .ok (c, some ws)) : Arrives e r ws := by
  unfold ccc at h
  split at h
  · simp at h
  · simp only at h
    rw [Outcome.bind_eq_ok] at h
    obtain ⟨w1, hw1, h⟩ := h
    rw [Outcome.bind_eq_ok] at h
    obtain ⟨w2, hw2, h⟩ := h
    rw [Outcome.bind_eq_ok] at h
    obtain ⟨w3, hw3, h⟩ := h
    simp only [Outcome.ok.injEq, Prod.mk.injEq, Option.some.injEq] at h
    rw [← h.2]
    apply arrives_of hr
    have := turnWays_last hw3
    rcases hg : w3.getLast? with _ | w
    · rw [hg] at this; simp at this
    · rw [List.getLast?_append, hg]
      rw [hg] at this; simpa using this

theorem better_keeps {P : List Way → Prop} {a b : Option (List Way)} (ha : ∀ w, a = some w → P w) (hb : ∀ w, b = some w → P w) :
    ∀ w, better a b = some w → P w := by
  intro w hw
  rcases (better_spec hw).1 with h | h
  · exact ha w h
  · exact hb w h

theorem pair_ok {b : ℂ} {q : Pose} {d2 : Dir} {sep r M : ℝ} {st : Circle × Option (List Way)} (hq : ‖q.to_‖ = 1) (hr : 1 ≤ r) (hs : 0 < sep)
    (hM : 2 * M < 2147483647) (h2r : 2 * r < 2147483647) (h7 : 7 * r < 2147483648 * sep) (hc2 : ‖(q.circle d2 r).c - b‖ ≤ M)
    (h1 : st.1.r = r ∧ ‖st.1.c - b‖ ≤ M) (h2 : ∀ w, st.2 = some w → Arrives q.at_ r w) :
    ∃ y, pair b q.at_ sep st (q.circle d2 r) = .ok y ∧ (y.1.r = r ∧ ‖y.1.c - b‖ ≤ M) ∧ (∀ w, y.2 = some w → Arrives q.at_ r w) ∧
      (st.2 ≠ none ∨ st.1.dir = d2 → y.2 ≠ none) := by
  have near : ∀ c : Circle, ‖c.c - b‖ ≤ M → ‖(q.circle d2 r).c - c.c‖ < 2147483647 := by
    intro c hc
    have : ‖(q.circle d2 r).c - c.c‖ ≤ ‖(q.circle d2 r).c - b‖ + ‖c.c - b‖ := by
      rw [show (q.circle d2 r).c - c.c = ((q.circle d2 r).c - b) - (c.c - b) by ring]; exact norm_sub_le _ _
    linarith
  obtain ⟨c, x, hcsc, hc⟩ := csc_ok (b := b) (e := q.at_) hr hs h1.1 (show (q.circle d2 r).r = r from rfl) (near _ h1.2) h2r h7
  have hcg : c.r = r ∧ ‖c.c - b‖ ≤ M := by
    rcases hc with rfl | rfl
    · exact h1
    · exact ⟨rfl, hc2⟩
  have hx : ∀ w, x = some w → Arrives q.at_ r w := by
    rintro w rfl
    exact csc_arrives hq hr h1.1 hcsc
  have hx' : st.1.dir = d2 → x ≠ none := fun h => csc_same_some (c2 := q.circle d2 r) h hcsc
  have hb : st.2 ≠ none ∨ st.1.dir = d2 → better st.2 x ≠ none := by
    rintro h hn
    obtain ⟨n1, n2⟩ := better_none hn
    rcases h with h | h
    · exact h n1
    · exact hx' h n2
  unfold pair
  rw [hcsc]
  simp only [Outcome.bind_ok]
  split
  · obtain ⟨c', z, hccc, hc'⟩ := ccc_ok (b := b) (e := q.at_) hr hs hcg.1 (show (q.circle d2 r).r = r from rfl) h7
    refine ⟨(c', better (better st.2 x) z), by rw [hccc]; rfl, ?_, ?_, ?_⟩
    · rcases hc' with rfl | rfl
      · exact hcg
      · exact ⟨rfl, hc2⟩
    · refine better_keeps (better_keeps h2 hx) ?_
      rintro w rfl
      exact ccc_arrives (by linarith) hccc
    · exact fun h hn => hb h (better_none hn).1
  · exact ⟨_, rfl, hcg, better_keeps h2 hx, hb⟩

theorem beside_near (p : ℂ) (h r : ℝ) (hr : 0 ≤ r) (dir : Dir) (b : ℂ) : ‖(beside p h r dir).c - b‖ ≤ ‖p - b‖ + r := by
  simp only [beside]
  rw [show p + dir.sign * r * I * toward h - b = (p - b) + dir.sign * r * I * toward h by ring]
  refine (norm_add_le _ _).trans ?_
  rw [norm_mul, norm_mul, norm_mul, toward_unit, Complex.norm_real, Complex.norm_real, Real.norm_eq_abs, dir.sign_abs, Real.norm_of_nonneg hr]
  simp

/-- **C171.**  There is a route for any two places and headings unless they are millions of kilometres apart or the waypoints are to be too
close, and its last waypoint is at the place asked for, up to 2.5 metres and a 200th of the radius. -/
theorem C171_arrives (b : ℂ) (hb : ℝ) (e : ℂ) (he : ℝ) {r sep : ℝ} (hr : 1 ≤ r) (hs : 0 < sep) (h1 : 2 * (‖e - b‖ + r) < 2147483647)
    (h7 : 7 * r < 2147483648 * sep) :
    ∃ ws w, dubins b hb e he r sep = .ok (some ws) ∧ ws.getLast? = some w ∧ ‖w.pos - e‖ ≤ 5 / 2 + 0.005 * r := by
  have hr0 : 0 ≤ r := by linarith
  have h2r : 2 * r < 2147483647 := by have := norm_nonneg (e - b); linarith
  have hq : ‖(⟨e, toward he⟩ : Pose).to_‖ = 1 := toward_unit he
  have hc2 : ∀ d, ‖((⟨e, toward he⟩ : Pose).circle d r).c - b‖ ≤ ‖e - b‖ + r := fun d => beside_near e he r hr0 d b
  have hc1 : ∀ d, (beside b hb r d).r = r ∧ ‖(beside b hb r d).c - b‖ ≤ ‖e - b‖ + r := by
    intro d
    refine ⟨rfl, (beside_near b hb r hr0 d b).trans ?_⟩
    simp
  obtain ⟨y1, o1, g1, a1, n1⟩ := pair_ok (d2 := .cw) (st := (beside b hb r .cw, none)) hq hr hs h1 h2r h7 (hc2 .cw) (hc1 .cw) (by simp)
  obtain ⟨y2, o2, g2, a2, n2⟩ := pair_ok (d2 := .ccw) (st := y1) hq hr hs h1 h2r h7 (hc2 .ccw) g1 a1
  obtain ⟨y3, o3, g3, a3, n3⟩ := pair_ok (d2 := .cw) (st := (beside b hb r .ccw, y2.2)) hq hr hs h1 h2r h7 (hc2 .cw) (hc1 .ccw) a2
  obtain ⟨y4, o4, g4, a4, n4⟩ := pair_ok (d2 := .ccw) (st := y3) hq hr hs h1 h2r h7 (hc2 .ccw) g3 a3
  have hsome : y4.2 ≠ none := n4 (Or.inl (n3 (Or.inl (n2 (Or.inl (n1 (Or.inr rfl)))))))
  obtain ⟨ws, hws⟩ := Option.ne_none_iff_exists'.1 hsome
  obtain ⟨w, hw, hd⟩ := a4 ws hws
  refine ⟨ws, w, ?_, hw, hd⟩
  unfold dubins
  simp only [beside_eq] at o1 o3 ⊢
  rw [o1]; simp only [Outcome.bind_ok]
  rw [o2]; simp only [Outcome.bind_ok]
  rw [o3]; simp only [Outcome.bind_ok]
  rw [o4, Outcome.bind_ok, hws]

end Verif.Dubins
