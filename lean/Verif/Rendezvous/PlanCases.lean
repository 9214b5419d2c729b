import Verif.Rendezvous.Plan

/-!
# C135: concrete plans, and where meeting fails
-/

namespace Verif.Rendezvous

open Real Verif.Earth Verif.Extend

theorem toInt64_ok {x : ℝ} (h0 : 0 ≤ x) (h1 : x < 9223372036854775807) : ∃ n, toInt64 x = .ok n := by
  unfold toInt64
  dsimp only
  rw [if_pos h0]
  have a := Int.floor_nonneg.2 h0
  have b : ⌊x⌋ < 9223372036854775807 := Int.floor_lt.2 (by exact_mod_cast h1)
  exact ⟨_, if_pos ⟨by omega, by omega⟩⟩

/-- **C135.**  An answer is given, with and without assertions, whenever the speed is at least 10^-4 m/s, the bank angle below
90°, the first waypoint not at a pole, the length of the way at most 10^12 s at that speed, and the turn radius and the time to
the latest arrival are in proportion. -/
theorem C135_total {arr : List (ℤ × ℤ) → List (ℤ × ℤ)} (harr : ∀ l, (arr l).Perm l) {asserts speedOnly : Bool} {task : ℤ}
    {t : Times} {st : Ent} {cfg : Option Cfg} {goal : Goal} {req vehicle wpId : ℤ} {ws : List Wp}
    {list : List Asg} {costs : List Cost} {starts : Map ℤ} {start : ℤ} {w0 : Wp} {V R : ℝ}
    (hlist : t.summary.get req = some list) (hcosts : t.matrix.get req = some costs) (hstarts : t.start.get req = some starts)
    (hstart : starts.get vehicle = some start)
    (hVe : planSpeed st cfg = V) (hRe : radius V (cfg.bind (·.air)) = R)
    (hV : 1 / 10000 ≤ V) (hb : BankOk (cfg.bind (·.air)))
    (hw : (prepare task st V goal wpId ws).head? = some w0) (hpole : 0 < cos (origin_ w0).1)
    (hlen : wayLength (origin_ w0) (prepare task st V goal wpId ws) ≤ 1000000000000 * V)
    (hRV : V ≤ 1000000 * R) (hVR : R ≤ 1000000000000 * V)
    (hA : ∀ A last, Latest task list costs starts st.time A last → ((A : ℝ) - start) * V ≤ 1000000 * R)
    (hn : ∀ w ∈ prepare task st V goal wpId ws, w.number ≤ 2 ^ 62)
    (hc : (prepare task st V goal wpId ws).length ≤ 2 ^ 61) :
    ∃ rs, implement arr asserts speedOnly task t (some st) cfg goal req vehicle wpId ws = .ok rs := by
  have hpi := pi_gt_three
  have hpi4 := pi_le_four
  subst hVe
  unfold implement
  dsimp only
  rw [hlist, hcosts, hstarts]
  dsimp only
  rw [hstart]
  dsimp only
  have hlat := hA _ _ (latest_chosen harr task list costs starts st.time)
  generalize latestArrival task (chosen task list ([], [])).2 costs starts st.time (arr (chosen task list ([], [])).1) (0, 0) =
    best at *
  have hsp : ∀ w ∈ prepare task st (planSpeed st cfg) goal wpId ws, w.speed = planSpeed st cfg :=
    fun w hw => (prepare_asked _ _ _ _ _ _ w hw).1
  generalize prepare task st (planSpeed st cfg) goal wpId ws = ps at *
  generalize planSpeed st cfg = V at *
  have hV0 : 0 < V := by linarith
  have hR0 := radius_pos hV0 hb
  rw [hRe] at hR0
  obtain ⟨w, more, rfl⟩ : ∃ w more, ps = w :: more := by
    cases ps with
    | nil => cases hw
    | cons w more => exact ⟨w, more, rfl⟩
  obtain rfl : w = w0 := by simpa using hw
  unfold stretch
  rw [travelDist_eq, Outcome.bind_ok, if_neg hV0.ne']
  have hway := wayLength_nonneg (origin_ w) (w :: more)
  generalize wayLength (origin_ w) (w :: more) = D at *
  have hD : D / V ≤ 1000000000000 := by rw [div_le_iff₀ hV0]; exact hlen
  have hD0 : 0 ≤ D / V := by positivity
  obtain ⟨n, hn1⟩ := toInt64_ok (x := D / V * 1000) (by linarith) (by linarith)
  have hn0 := (toInt64_spec (by linarith) hn1).1
  rw [hn1, Outcome.bind_ok]
  dsimp only
  by_cases hcase : best.1 - n - start ≤ 1000 ∨ best.2 = vehicle
  · rw [if_pos hcase]; exact ⟨_, rfl⟩
  rw [if_neg hcase]
  have hext : 1000 < best.1 - n - start := not_le.1 fun c => hcase (.inl c)
  generalize he : best.1 - n - start = ext at *
  have heR : (ext : ℝ) ≤ best.1 - start := by
    rw [← he]
    push_cast
    have : (0 : ℝ) ≤ n := by exact_mod_cast hn0
    linarith
  have hext0 : (0 : ℝ) ≤ ext := by exact_mod_cast (by omega : (0 : ℤ) ≤ ext)
  have hb1 : (ext : ℝ) * V ≤ 1000000 * R := (mul_le_mul_of_nonneg_right heR hV0.le).trans hlat
  rw [show manoeuvre V (cfg.bind (·.air)) = (R, slowest V (cfg.bind (·.air))) by rw [← hRe, manoeuvre_eq]]
  dsimp only
  generalize slowest V (cfg.bind (·.air)) = lo
  by_cases hs : speedOnly = true ∧ V - lo > 1 / 10000 ∧ ext * (V - lo) < D * 1000
  · rw [if_pos hs]; exact ⟨_, rfl⟩
  rw [if_neg hs]
  have hpR : 3 * R ≤ π * R := mul_le_mul_of_nonneg_right hpi.le hR0.le
  have hpR4 : π * R ≤ 4 * R := mul_le_mul_of_nonneg_right hpi4 hR0.le
  have hseg : 0 < 2 * π * R / 8 := by positivity
  have hheads : ∀ x, (w :: more).head? = some x → 0 < cos (origin_ x).1 := by
    intro x hx
    obtain rfl : w = x := by simpa using hx
    exact hpole
  obtain ⟨⟨done, r1⟩, h1⟩ := C131_answer (asserts := asserts) (V := V) (d := 2 * π * R / 8) (ms := ext) hR0 hseg (by omega) hheads
    (fun x hx => (hsp x hx).le) (by linarith) (by linarith) hn hc
  rw [h1, Outcome.bind_ok]
  cases done with
  | true => exact ⟨_, rfl⟩
  | false =>
    obtain ⟨rfl, _⟩ := C131_refused h1
    dsimp only
    rw [if_neg (by simp)]
    have hRq : R / V ≤ 1000000000000 := by rw [div_le_iff₀ hV0]; exact hVR
    have hq : 1000 * (2 * π * R / 8) * 8 / V + 1000 = 2000 * (π * (R / V)) + 1000 := by ring
    have hRV0 : 0 ≤ R / V := by positivity
    have hp4 : π * (R / V) ≤ 4 * (R / V) := mul_le_mul_of_nonneg_right hpi4 hRV0
    have hp0 : 0 ≤ π * (R / V) := by positivity
    obtain ⟨c, hc1⟩ := toInt64_ok (x := 1000 * (2 * π * R / 8) * 8 / V + 1000) (by rw [hq]; linarith) (by rw [hq]; linarith)
    obtain ⟨c0, c1, c2⟩ := toInt64_spec (by rw [hq]; linarith) hc1
    rw [hc1, Outcome.bind_ok]
    have hcV : (c : ℝ) * V ≤ 2000 * (π * R) + 1000 * V := by
      have := mul_le_mul_of_nonneg_right c1 hV0.le
      rw [hq] at this
      have e : (2000 * (π * (R / V)) + 1000) * V = 2000 * (π * R) + 1000 * V := by field_simp
      rw [e] at this
      exact this
    obtain ⟨r2, h2⟩ := C131_answer (asserts := asserts) (V := V) (d := 2 * π * R / 8) (ms := c) hR0 hseg c0 hheads
      (fun x hx => (hsp x hx).le) (by linarith) (by linarith) hn hc
    rw [h2, Outcome.bind_ok]
    exact ⟨_, rfl⟩

/-- **C135, violated at speed 0.**  When all that is needed is known, but the speed planned with is 0, a division by 0 is
converted to an integer: undefined behaviour. -/
theorem C135_zero_violated {arr : List (ℤ × ℤ) → List (ℤ × ℤ)} {asserts speedOnly : Bool} {task : ℤ}
    {t : Times} {st : Ent} {cfg : Option Cfg} {goal : Goal} {req vehicle wpId : ℤ} {ws : List Wp}
    {list : List Asg} {costs : List Cost} {starts : Map ℤ} {start : ℤ}
    (hlist : t.summary.get req = some list) (hcosts : t.matrix.get req = some costs) (hstarts : t.start.get req = some starts)
    (hstart : starts.get vehicle = some start) (hV : planSpeed st cfg = 0) :
    implement arr asserts speedOnly task t (some st) cfg goal req vehicle wpId ws = .ub := by
  unfold implement
  dsimp only
  rw [hlist, hcosts, hstarts]
  dsimp only
  rw [hstart]
  dsimp only
  have hl := prepare_length task st (planSpeed st cfg) goal wpId ws
  generalize prepare task st (planSpeed st cfg) goal wpId ws = ps at *
  match ps, hl with
  | w :: more, _ =>
    unfold stretch
    rw [travelDist_eq, Outcome.bind_ok, if_pos hV]

/-! ## Two vehicles -/

/-- Vehicle 10, at the equator. -/
noncomputable def ten : Ent := { id := 10, lat := 0, lon := 0, time := 0, ground := 0, airspeed := none, cur := 0 }

/-- What is known of request 1: vehicles 10 and 20 meet (task 7), 10 in a second, 20 at `T`. -/
def known (T : ℤ) : Times where
  summary := [(1, [⟨7, 1, 10⟩, ⟨7, 2, 20⟩])]
  matrix := [(1, [⟨10, 0, 0, 7, 1, 1000⟩, ⟨20, 0, 0, 7, 2, T⟩])]
  start := [(1, [(10, 0), (20, 0)])]

theorem known_latest {T : ℤ} (hT : 1000 < T) {A last : ℤ}
    (h : Latest 7 [⟨7, 1, 10⟩, ⟨7, 2, 20⟩] [⟨10, 0, 0, 7, 1, 1000⟩, ⟨20, 0, 0, 7, 2, T⟩] [(10, 0), (20, 0)] 0 A last) :
    A = T ∧ last = 20 := by
  obtain ⟨h1, h2⟩ := h
  have hT' := h1 20 T ⟨⟨20, 0, 0, 7, 2, T⟩, by simp, rfl, rfl, rfl, rfl, by simp [Map.get]⟩
  rcases h2 with ⟨rfl, rfl⟩ | ⟨c, hc, rfl, _, _, _, h⟩
  · omega
  · simp only [List.mem_cons, List.not_mem_nil, or_false] at hc
    rcases hc with rfl | rfl
    · simp [Map.get] at h; omega
    · simp [Map.get] at h
      exact ⟨h, rfl⟩

theorem way_east {V x : ℝ} (hx : 0 ≤ x) (alt : ℝ) (ty : ℕ) (n : ℤ) :
    wayLength (0, 0) (prepare 7 ten V ⟨0, x, alt, ty⟩ n []) = 6378135 * (1745329251994 / 100000000000000) * x := by
  simp only [prepare, List.isEmpty_nil, if_true, List.map_cons, List.map_nil, wayLength, gap, add_zero]
  simp only [plane, parallel, radians, radiusEquatorial, ten]
  simp only [zero_mul, sub_zero, mul_zero, Real.sin_zero, Real.cos_zero]
  norm_num
  rw [Real.sqrt_sq (by positivity)]
  ring

theorem head_ten {V x alt : ℝ} {ty : ℕ} {n : ℤ} : ∃ w0, (prepare 7 ten V ⟨0, x, alt, ty⟩ n []).head? = some w0 ∧
    origin_ w0 = (0, 0) ∧ (prepare 7 ten V ⟨0, x, alt, ty⟩ n []).length = 2 ∧
    ∀ w ∈ prepare 7 ten V ⟨0, x, alt, ty⟩ n [], w.number ≤ n + 1 := by
  refine ⟨_, rfl, ?_, rfl, ?_⟩
  · simp [origin_, radians, ten]
  · simp [prepare]

theorem way_two {o : ℝ × ℝ} {ws : List Wp} {i : ℕ} {a b : Wp} (h : ws.length = 2) (ha : ws[i]? = some a)
    (hb : ws[i + 1]? = some b) : wayLength o ws = gap o a b := by
  match ws, h with
  | [p, q], _ =>
    cases i with
    | zero =>
      obtain rfl : p = a := by simpa using ha
      obtain rfl : q = b := by simpa using hb
      simp [wayLength]
    | succ i => simp at hb

/-- An air vehicle with a nominal speed, a smallest and largest speed and a bank angle of 45°. -/
noncomputable def cfgOf (nom lo hi : ℝ) : Cfg := { nominal := nom, air := some (lo, hi, 45) }

theorem radius_45 (V lo hi : ℝ) : radius V (some (lo, hi, 45)) = 12 / 10 * (V * V / (980665 / 100000)) := by
  unfold radius bankAngle
  dsimp only
  have e : (45 : ℝ) * (π / 180) = π / 4 := by ring
  rw [show |(45 : ℝ)| = 45 by norm_num, max_eq_right (by norm_num), e, tan_pi_div_four, mul_one, pow_two]

theorem bank_45 (lo hi : ℝ) : BankOk (some (lo, hi, 45)) := by
  intro _ _ _ h
  cases h
  norm_num

theorem ten_answers {arr : List (ℤ × ℤ) → List (ℤ × ℤ)} (harr : ∀ l, (arr l).Perm l) (asserts speedOnly : Bool) {V x : ℝ}
    {T : ℤ} (lo hi : ℝ) (hV : 1 ≤ V) (hV2 : V ≤ 100) (hx : 0 ≤ x) (hx2 : x ≤ 1) (hT : 1000 < T) (hT2 : (T : ℝ) ≤ 100000 * V) :
    ∃ rs, implement arr asserts speedOnly 7 (known T) (some ten) (some (cfgOf V lo hi)) ⟨0, x, 100, 0⟩ 1 10 5 [] = .ok rs := by
  obtain ⟨w0, h1, h2, h3, h4⟩ := head_ten (V := V) (x := x) (alt := 100) (ty := 0) (n := 5)
  have hT0 : (0 : ℝ) ≤ T := by exact_mod_cast (by omega : (0 : ℤ) ≤ T)
  have hVV : V ≤ V * V := by nlinarith
  have hVV2 : V * V ≤ 100 * V := by nlinarith
  have hTV : (T : ℝ) * V ≤ 100000 * V * V := mul_le_mul_of_nonneg_right hT2 (by linarith)
  refine C135_total harr (t := known T) (req := 1) (vehicle := 10) (list := _) (costs := _) (starts := _) (start := 0)
    rfl rfl rfl rfl rfl rfl (by exact le_trans (by norm_num) hV) (bank_45 lo hi) h1 (by rw [h2]; simp) ?_ ?_ ?_ ?_ ?_ ?_
  · rw [h2, show planSpeed ten (some (cfgOf V lo hi)) = V from rfl, way_east hx]
    nlinarith
  · show V ≤ 1000000 * radius V (some (lo, hi, 45))
    rw [radius_45]
    linarith
  · show radius V (some (lo, hi, 45)) ≤ 1000000000000 * V
    rw [radius_45]
    linarith
  · intro A last h
    obtain ⟨rfl, rfl⟩ := known_latest hT h
    show ((A : ℝ) - (0 : ℤ)) * V ≤ 1000000 * radius V (some (lo, hi, 45))
    rw [radius_45]
    push_cast
    linarith
  · intro w hw
    exact (h4 w hw).trans (by norm_num)
  · show (prepare 7 ten V ⟨0, x, 100, 0⟩ 5 []).length ≤ _
    rw [h3]
    norm_num

/-- What the answer for vehicle 10 is. -/
theorem ten_met {arr : List (ℤ × ℤ) → List (ℤ × ℤ)} (harr : ∀ l, (arr l).Perm l) {asserts speedOnly : Bool} {V x lo hi : ℝ}
    {T : ℤ} {rs : List Wp} (hV : 1 ≤ V) (hT : 1000 < T)
    (h : implement arr asserts speedOnly 7 (known T) (some ten) (some (cfgOf V lo hi)) ⟨0, x, 100, 0⟩ 1 10 5 [] = .ok rs) :
    ∃ w0, origin_ w0 = (0, 0) ∧ (prepare 7 ten V ⟨0, x, 100, 0⟩ 5 []).head? = some w0 ∧
      Met speedOnly V (some (lo, hi, 45)) False T 0 w0 (prepare 7 ten V ⟨0, x, 100, 0⟩ 5 []) rs := by
  obtain ⟨w0, h1, h2, h3, h4⟩ := head_ten (V := V) (x := x) (alt := 100) (ty := 0) (n := 5)
  obtain ⟨A, last, hl, hm⟩ := C135_answer_partial harr (t := known T) (cfg := some (cfgOf V lo hi)) (req := 1) (vehicle := 10)
    (start := 0) rfl rfl rfl rfl
    (by exact le_trans (by norm_num) hV) (bank_45 lo hi) h1 (by rw [h2]; simp) h
  obtain ⟨rfl, rfl⟩ := known_latest hT hl
  refine ⟨w0, h2, h1, ?_⟩
  have e : ((20 : ℤ) = 10) = False := by simp
  rw [e] at hm
  exact hm

/-- The hypotheses of `C135_answer_partial` and `C135_on_time` hold together: the vehicle, 111 km from the place, is 87 seconds
early, and its route is extended so that it arrives with the other, within a millisecond. -/
example {arr : List (ℤ × ℤ) → List (ℤ × ℤ)} (harr : ∀ l, (arr l).Perm l) : ∃ (rs : List Wp) (w0 : Wp) (ms : ℤ) (len cut : ℝ),
    implement arr true false 7 (known 1200000) (some ten) (some (cfgOf 100 80 120)) ⟨0, 1, 100, 0⟩ 1 10 5 [] = .ok rs ∧
    Lengthened (radius 100 (some (80, 120, 45))) ms w0 (prepare 7 ten 100 ⟨0, 1, 100, 0⟩ 5 []) rs len cut ∧
    |arrival 0 100 (6378135 * (1745329251994 / 100000000000000) * 1 + (len - cut)) - 1200000| ≤ 1 := by
  obtain ⟨rs, h⟩ := ten_answers harr true false (V := 100) (x := 1) (T := 1200000) 80 120 (by norm_num) (by norm_num) (by norm_num)
    (by norm_num) (by norm_num) (by norm_num)
  obtain ⟨w0, ho, hhead, hm⟩ := ten_met harr (by norm_num) (by norm_num) h
  have hw := way_east (V := 100) (x := 1) (by norm_num) 100 0 5
  rcases C135_on_time hm (by
    intro hs
    have := hs 0 _ _ rfl rfl
    have hg : gap (origin_ w0) (prepare 7 ten 100 ⟨0, 1, 100, 0⟩ 5 [])[0] (prepare 7 ten 100 ⟨0, 1, 100, 0⟩ 5 [])[1] + 0 =
      6378135 * (1745329251994 / 100000000000000) * 1 := by
      rw [ho]
      exact hw
    have this' : gap (origin_ w0) (prepare 7 ten 100 ⟨0, 1, 100, 0⟩ 5 [])[0] (prepare 7 ten 100 ⟨0, 1, 100, 0⟩ 5 [])[1] <
        6 * radius 100 (some (80, 120, 45)) ∨
      gap (origin_ w0) (prepare 7 ten 100 ⟨0, 1, 100, 0⟩ 5 [])[0] (prepare 7 ten 100 ⟨0, 1, 100, 0⟩ 5 [])[1] ≤ 1 / 10000 := this
    rw [add_zero] at hg
    rw [hg, radius_45] at this'
    norm_num at this') with ⟨_, h0 | h0⟩ | ⟨ms, len, cut, h1, h2, h3⟩
  · exact h0.elim
  · rw [ho, hw] at h0
    unfold arrival at h0
    norm_num at h0
  · refine ⟨rs, w0, ms, len, cut, h, h1, ?_⟩
    rw [ho, hw] at h2 h3
    rw [radius_45] at h2
    rw [abs_le]
    push_cast at h2 h3
    constructor <;> linarith

/-- **C135, violated on short routes.**  The vehicle, 11 m from the place at 10 m/s, has a minute to wait for the other.  The
route is not extended by a minute: with the circle it is offered instead, or without, the vehicle arrives 50 seconds early. -/
theorem C135_circle_violated {arr : List (ℤ × ℤ) → List (ℤ × ℤ)} (harr : ∀ l, (arr l).Perm l) (asserts : Bool) : ∃ rs : List Wp,
    implement arr asserts false 7 (known 61113) (some ten) (some (cfgOf 10 8 12)) ⟨0, 1 / 10000, 100, 0⟩ 1 10 5 [] = .ok rs ∧
    ((rs = prepare 7 ten 10 ⟨0, 1 / 10000, 100, 0⟩ 5 [] ∧
        arrival 0 10 (wayLength (0, 0) (prepare 7 ten 10 ⟨0, 1 / 10000, 100, 0⟩ 5 [])) ≤ 61113 - 50000) ∨
      ∃ w0 ms len cut, Lengthened (radius 10 (some (8, 12, 45))) ms w0 (prepare 7 ten 10 ⟨0, 1 / 10000, 100, 0⟩ 5 []) rs len cut ∧
        arrival 0 10 (wayLength (0, 0) (prepare 7 ten 10 ⟨0, 1 / 10000, 100, 0⟩ 5 []) + (len - cut)) ≤ 61113 - 50000) := by
  have hpi := pi_gt_d2
  have hpi2 := pi_lt_d2
  obtain ⟨rs, h⟩ := ten_answers harr asserts false (V := 10) (x := 1 / 10000) (T := 61113) 8 12 (by norm_num) (by norm_num)
    (by norm_num) (by norm_num) (by norm_num) (by norm_num)
  obtain ⟨w0, ho, hhead, hm⟩ := ten_met harr (by norm_num) (by norm_num) h
  have hw := way_east (V := 10) (x := 1 / 10000) (by norm_num) 100 0 5
  have hr := radius_45 10 8 12
  refine ⟨rs, h, ?_⟩
  have early : arrival 0 10 (wayLength (0, 0) (prepare 7 ten 10 ⟨0, 1 / 10000, 100, 0⟩ 5 [])) ≤ 61113 - 50000 := by
    rw [hw]; unfold arrival; norm_num
  cases hm with
  | last hh => exact hh.elim
  | enough hh => exact .inl ⟨rfl, early⟩
  | speed hh => cases hh
  | short hh => exact .inl ⟨rfl, early⟩
  | circle ms _ len cut hs hL hlo hhi =>
    refine .inr ⟨w0, ms, len, cut, hL, ?_⟩
    rw [hw]
    rw [hr] at hhi
    unfold arrival
    norm_num at hhi ⊢
    linarith
  | extended ms _ len cut hL hlo hhi =>
    exfalso
    obtain ⟨i, a, b, m, mid, post, psi, s, N, dub, zs, hE, rfl⟩ := hL
    have hsp : ∀ w ∈ prepare 7 ten 10 ⟨0, 1 / 10000, 100, 0⟩ 5 [], w.speed = 10 :=
      fun w hw => (prepare_asked _ _ _ _ _ _ w hw).1
    obtain ⟨l1, l2⟩ := extended_len hE hhead hsp
    obtain ⟨n1, n2, _⟩ := hE.need
    have hg := way_two (o := origin_ w0) rfl hE.seg.1 hE.seg.2
    rw [ho, hw] at hg
    rw [ho, ← hg] at n2
    rw [hsp w0 (List.mem_of_mem_head? hhead), speedOn_same fun x hx => hsp x (List.mem_of_mem_tail hx)] at n1
    rw [ho, hw] at hlo hhi
    unfold arrival at hlo hhi
    rw [hr] at l2 hlo n1
    generalize hR : (12 / 10 * (10 * 10 / (980665 / 100000)) : ℝ) = R at *
    have hR1 : 12 < R := by rw [← hR]; norm_num
    have hR2 : R < 12.24 := by rw [← hR]; norm_num
    push_cast at hlo hhi
    generalize he : (ms : ℝ) / 1000 * 10 = e at *
    have e1 : 599.9 < e := by linarith
    have e2 : e < 600.1 := by linarith
    have c1 : 76 < 2 * π * R := by nlinarith
    have c2 : 2 * π * R < 77.2 := by nlinarith
    have hm : (599.9 - 7 * 77.2) / 2 < m := by
      unfold required at n1
      rw [if_neg (by nlinarith), if_neg (by linarith), Outcome.bind_eq_ok] at n1
      obtain ⟨_, _, n1⟩ := n1
      obtain rfl := Outcome.ok.inj n1
      obtain ⟨r1, r2, r3⟩ := rfmod_spec (show 0 < 2 * π * R by linarith) (show 0 ≤ e by linarith)
      have hfl : ⌊e / (2 * π * R)⌋ = 7 := by
        rw [Int.floor_eq_iff]
        constructor
        · rw [le_div_iff₀ (by linarith)]; push_cast; linarith
        · rw [div_lt_iff₀ (by linarith)]; push_cast; linarith
      rw [hfl] at r1
      rw [r1]
      push_cast
      linarith
    norm_num at hm n2
    linarith

/-- **C135, violated when speed alone is preferred.**  The vehicle, 2 km from the place, has to wait for more than a quarter of
an hour; it can slow down from 20 to 19 m/s only.  Its route is kept as if that were enough, and even at its smallest speed it
arrives more than 15 minutes early. -/
theorem C135_speed_violated {arr : List (ℤ × ℤ) → List (ℤ × ℤ)} (harr : ∀ l, (arr l).Perm l) (asserts : Bool) :
    implement arr asserts true 7 (known 1100000) (some ten) (some (cfgOf 20 19 40)) ⟨0, 18 / 1000, 100, 0⟩ 1 10 5 [] =
      .ok (prepare 7 ten 20 ⟨0, 18 / 1000, 100, 0⟩ 5 []) ∧
    arrival 0 19 (wayLength (0, 0) (prepare 7 ten 20 ⟨0, 18 / 1000, 100, 0⟩ 5 [])) < 1100000 - 15 * 60 * 1000 := by
  have hw := way_east (V := 20) (x := 18 / 1000) (by norm_num) 100 0 5
  constructor
  swap
  · rw [hw]; unfold arrival; norm_num
  obtain ⟨w0, h1, h2, h3, h4⟩ := head_ten (V := 20) (x := 18 / 1000) (alt := 100) (ty := 0) (n := 5)
  have hl := latest_chosen harr 7 [⟨7, 1, 10⟩, ⟨7, 2, 20⟩] [⟨10, 0, 0, 7, 1, 1000⟩, ⟨20, 0, 0, 7, 2, 1100000⟩]
    [(10, 0), (20, 0)] 0
  obtain ⟨hA, hlast⟩ := known_latest (by norm_num) hl
  show stretch asserts true 20 (some (19, 40, 45)) 10
    (latestArrival 7 (chosen 7 [⟨7, 1, 10⟩, ⟨7, 2, 20⟩] ([], [])).2 [⟨10, 0, 0, 7, 1, 1000⟩, ⟨20, 0, 0, 7, 2, 1100000⟩]
      [(10, 0), (20, 0)] 0 (arr (chosen 7 [⟨7, 1, 10⟩, ⟨7, 2, 20⟩] ([], [])).1) (0, 0)) 0
    (prepare 7 ten 20 ⟨0, 18 / 1000, 100, 0⟩ 5 []) = _
  generalize latestArrival _ _ _ _ _ _ _ = best at *
  generalize prepare 7 ten 20 ⟨0, 18 / 1000, 100, 0⟩ 5 [] = ps at *
  match ps, h1 with
  | w :: more, h1 =>
    obtain rfl : w = w0 := by simpa using h1
    unfold stretch
    rw [travelDist_eq, Outcome.bind_ok, if_neg (by norm_num), h2, hw]
    obtain ⟨n, hn⟩ := toInt64_ok (x := 6378135 * (1745329251994 / 100000000000000) * (18 / 1000) / 20 * 1000)
      (by norm_num) (by norm_num)
    obtain ⟨n0, n1, n2⟩ := toInt64_spec (by norm_num) hn
    rw [hn, Outcome.bind_ok]
    dsimp only
    have hn1 : (n : ℝ) < 100189 := lt_of_le_of_lt n1 (by norm_num)
    have hn2 : n < 100189 := by exact_mod_cast hn1
    have hn3 : (100000 : ℝ) < n := by
      have : (100001 : ℝ) < n + 1 := lt_trans (by norm_num) n2
      linarith
    rw [hA, hlast, if_neg (by omega)]
    have hv : manoeuvre 20 (some (19, 40, 45)) = ((manoeuvre 20 (some (19, 40, 45))).1, 19) := by
      unfold manoeuvre
      norm_num
    rw [hv]
    dsimp only
    rw [if_pos]
    refine ⟨rfl, by norm_num, ?_⟩
    push_cast
    norm_num
    linarith

/-- **C135, violated when tasks come in between.**  Vehicle 10 is asked to meet before vehicle 20 was asked for the task it does
first: it is planned to arrive after 100 seconds, as the last one; then vehicle 20 is free after 5 minutes only, and planned to
arrive after 6. -/
theorem C135_same_violated :
    let list : List Asg := [⟨7, 1, 10⟩, ⟨3, 1, 20⟩, ⟨7, 2, 20⟩]
    let costs : List Cost := [⟨10, 0, 0, 7, 1, 100000⟩, ⟨20, 3, 1, 7, 2, 60000⟩]
    let one := Times.after 7 [.summary 1 list, .matrix 1 costs, .implRequest 1 10 7 0]
    let two := Times.after 7 [.summary 1 list, .matrix 1 costs, .implRequest 1 10 7 0, .implRequest 1 20 3 0,
      .implResponse 1 20 3 300000, .implRequest 1 20 7 300000]
    ∃ s1 s2, one.start.get 1 = some s1 ∧ two.start.get 1 = some s2 ∧
      Latest 7 list costs s1 0 100000 10 ∧ Latest 7 list costs s2 0 360000 20 := by
  intro list costs one two
  have e1 : one.start.get 1 = some [(20, 0), (10, 0)] := by decide +kernel
  have e2 : two.start.get 1 = some [(20, 300000), (10, 0)] := by decide +kernel
  have e3 : latestArrival 7 (chosen 7 list ([], [])).2 costs [(20, 0), (10, 0)] 0 (id (chosen 7 list ([], [])).1) (0, 0) =
    (100000, 10) := by decide +kernel
  have e4 : latestArrival 7 (chosen 7 list ([], [])).2 costs [(20, 300000), (10, 0)] 0 (id (chosen 7 list ([], [])).1) (0, 0) =
    (360000, 20) := by decide +kernel
  have h1 := latest_chosen (arr := id) (fun l => List.Perm.refl l) 7 list costs [(20, 0), (10, 0)] 0
  have h2 := latest_chosen (arr := id) (fun l => List.Perm.refl l) 7 list costs [(20, 300000), (10, 0)] 0
  rw [e3] at h1
  rw [e4] at h2
  exact ⟨_, _, e1, e2, h1, h2⟩

end Verif.Rendezvous
