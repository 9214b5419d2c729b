import Verif.Dynamic.Targets
import Verif.Dynamic.Ring
import Mathlib.Analysis.SpecialFunctions.Complex.Arg

/-!
# What options are offered (C151), and where an overwatch (C152) and a relay (C153) go
-/

namespace Verif.Dynamic

open Complex Verif.Blockade

/-! ### Options -/

variable {p : Params} {config : ℤ → Option Config} {known : ℤ → Bool} {loc : ℤ → Option Loc} {s : St}

/-- **C151.**  There is one option for each eligible vehicle with a known state and a known configuration, in their order,
numbered one after the other; it starts and ends at the place that the task computes for the vehicle now, which is moved off
keep-out zones for air vehicles. -/
theorem C151_options : ∀ (es : List ℤ) (n : ℤ) (os : List Opt), options p config known loc s n es = .ok os →
    os.map Opt.entity = es.filter (fun e => known e && (config e).isSome) ∧
    (∀ i (hi : i < os.length), os[i].id = n + i) ∧
    (∀ o ∈ os, o.task = p.task ∧ ∃ l c, loc o.entity = some l ∧ config o.entity = some c ∧
      o.start = (if c.kind = .air then attemptMove s l (loiterRadius c.nominalSpeed * 1.5) else l) ∧ o.stop = o.start) := by
  intro es
  induction es with
  | nil =>
      intro n os h
      simp only [options, Outcome.ok.injEq] at h
      subst h; simp
  | cons e es ih =>
      intro n os h
      cases hk : known e with
      | false =>
          simp only [options, hk] at h
          obtain ⟨h1, h2, h3⟩ := ih n os h
          refine ⟨?_, h2, h3⟩
          rw [List.filter_cons_of_neg (by simp [hk])]; exact h1
      | true =>
          cases hc : config e with
          | none =>
              simp only [options, hk, hc] at h
              obtain ⟨h1, h2, h3⟩ := ih n os h
              refine ⟨?_, h2, h3⟩
              rw [List.filter_cons_of_neg (by simp [hc])]; exact h1
          | some c =>
              cases hl : loc e with
              | none => simp only [options, hk, hc, hl] at h; cases h
              | some l =>
                  simp only [options, hk, hc, hl] at h
                  obtain ⟨os', ho', h⟩ := Outcome.bind_eq_ok.1 h
                  simp only [Outcome.ok.injEq] at h
                  subst h
                  obtain ⟨h1, h2, h3⟩ := ih (n + 1) os' ho'
                  refine ⟨?_, ?_, ?_⟩
                  · rw [List.filter_cons_of_pos (by simp [hk, hc]), List.map_cons, h1]
                  · intro i hi
                    cases i with
                    | zero => simp
                    | succ i =>
                        simp only [List.getElem_cons_succ]
                        rw [h2 i (by simpa using hi)]
                        push_cast; ring
                  · intro o ho
                    rcases List.mem_cons.1 ho with rfl | ho
                    · exact ⟨rfl, l, c, hl, hc, rfl, rfl⟩
                    · exact h3 o ho

/-- **C151.**  The options are sent exactly if a place is computed for each of these vehicles. -/
theorem C151_total : ∀ (es : List ℤ) (n : ℤ), (∃ os, options p config known loc s n es = .ok os) ↔
    ∀ e ∈ es, known e = true → config e ≠ none → loc e ≠ none := by
  intro es
  induction es with
  | nil => intro n; simp [options]
  | cons e es ih =>
      intro n
      cases hk : known e with
      | false => simp [options, hk, ih]
      | true =>
          cases hc : config e with
          | none => simp [options, hk, hc, ih]
          | some c =>
              cases hl : loc e with
              | none => simp [options, hk, hc, hl]
              | some l =>
                  simp only [options, hk, hc, hl]
                  constructor
                  · rintro ⟨os, h⟩
                    obtain ⟨os', ho', -⟩ := Outcome.bind_eq_ok.1 h
                    have := (ih (n + 1)).1 ⟨os', ho'⟩
                    intro e' he'
                    rcases List.mem_cons.1 he' with rfl | he'
                    · intro _ _; rw [hl]; simp
                    · exact this e' he'
                  · intro h
                    obtain ⟨os', ho'⟩ := (ih (n + 1)).2 (fun e' he' => h e' (List.mem_cons_of_mem _ he'))
                    exact ⟨_, by rw [ho']; rfl⟩

/-- **C151, violated**: if no place is computed for one of them, the service fails instead of sending the options of the
others. -/
theorem C151_null_violated : ∀ (es : List ℤ) (n : ℤ) (e : ℤ), e ∈ es → known e = true → config e ≠ none → loc e = none →
    options p config known loc s n es = .ub := by
  intro es
  induction es with
  | nil => intro n e he; cases he
  | cons e' es ih =>
      intro n e he h1 h2 h3
      cases hk : known e' with
      | false =>
          simp only [options, hk]
          rcases List.mem_cons.1 he with rfl | he
          · rw [h1] at hk; cases hk
          · exact ih n e he h1 h2 h3
      | true =>
          cases hc : config e' with
          | none =>
              simp only [options, hk, hc]
              rcases List.mem_cons.1 he with rfl | he
              · exact absurd hc h2
              · exact ih n e he h1 h2 h3
          | some c =>
              cases hl : loc e' with
              | none => simp only [options, hk, hc, hl]
              | some l =>
                  simp only [options, hk, hc, hl]
                  rcases List.mem_cons.1 he with rfl | he
                  · rw [h3] at hl; cases hl
                  · rw [ih (n + 1) e he h1 h2 h3]; rfl

/-! ### Overwatch -/

/-- The states of the watched entity that count, of a history of states. -/
def heard (watched : ℤ) (hs : List (ℤ × Track × Bool)) : List Track :=
  (hs.filter (fun h => h.1 = watched ∧ h.2.2 = false)).map (fun h => h.2.1)

/-- **C152.**  After any history of states, the window has the last four states of the watched entity, or fewer if it was not
heard of as often, and the last of them is the one that is projected. -/
theorem C152_window (watched : ℤ) (hs : List (ℤ × Track × Bool)) :
    (hs.foldl (fun w h => watch watched w h.1 h.2.1 h.2.2) {}).window = (heard watched hs).drop ((heard watched hs).length - 4) ∧
    (hs.foldl (fun w h => watch watched w h.1 h.2.1 h.2.2) {}).last = (heard watched hs).getLast? := by
  induction hs using List.reverseRecOn with
  | nil => simp [heard]
  | append_singleton hs h ih =>
      obtain ⟨ih1, ih2⟩ := ih
      rw [List.foldl_append, List.foldl_cons, List.foldl_nil]
      by_cases hw : h.1 = watched ∧ h.2.2 = false
      · have e : heard watched (hs ++ [h]) = heard watched hs ++ [h.2.1] := by
          unfold heard
          rw [List.filter_append, List.map_append, List.filter_cons_of_pos (by simpa using hw)]
          rfl
        rw [e, watch, if_pos hw]
        refine ⟨?_, by simp⟩
        simp only [ih1]
        set l := heard watched hs
        rw [← List.drop_append_of_le_length (by omega), List.drop_drop]
        congr 1
        simp only [List.length_append, List.length_drop, List.length_cons, List.length_nil]
        omega
      · have e : heard watched (hs ++ [h]) = heard watched hs := by
          unfold heard
          rw [List.filter_append, List.map_append, List.filter_cons_of_neg (by simpa using hw)]
          simp
        rw [e, watch, if_neg hw]
        exact ⟨ih1, ih2⟩

/-- **C152.**  No place is computed exactly if the watched entity was never heard of, or not for 15 seconds. -/
theorem C152_none (w : Watch) (now : ℤ) : overwatch w now = none ↔ ∀ t, w.last = some t → t.time + 15000 < now := by
  unfold overwatch
  cases h : w.last with
  | none => simp
  | some t =>
      simp only [Option.some.injEq, forall_eq']
      by_cases h1 : 15000 < now - t.time
      · rw [if_pos h1]; simp; omega
      · rw [if_neg h1]
        split
        · simp; omega
        · simp; omega

/-- **C152.**  Up to a tenth of a second, it is the place where the watched entity was. -/
theorem C152_recent {w : Watch} {t : Track} (h : w.last = some t) {now : ℤ} (hn : now ≤ t.time + 100) :
    overwatch w now = some t.loc := by
  unfold overwatch
  simp only [h]
  rw [if_neg (by omega), if_neg (by omega)]

theorem speed_eq (d : ℂ) : Real.sqrt (d.im * d.im + d.re * d.re) = ‖d‖ := by
  rw [Complex.norm_def, Complex.normSq_apply, add_comm]

/-- The motion that the loop takes for a motion with constant velocity. -/
def skew (v : ℂ) : ℂ := ⟨v.re - v.im, v.im⟩

theorem sums_const {x v : ℂ} : ∀ (l : List Track) (f : Track) (a : Sums),
    (∀ t ∈ f :: l, t.loc.place = x + v * ((t.time : ℝ) / 1000 : ℝ)) →
    a.speed = a.n * ‖skew v‖ ∧ a.cosine = a.n * Real.cos (Real.pi / 2 - arg (skew v)) ∧
      a.sine = a.n * Real.sin (Real.pi / 2 - arg (skew v)) →
    (sums f l a).speed = (sums f l a).n * ‖skew v‖ ∧ (sums f l a).cosine = (sums f l a).n * Real.cos (Real.pi / 2 - arg (skew v)) ∧
      (sums f l a).sine = (sums f l a).n * Real.sin (Real.pi / 2 - arg (skew v)) ∧ a.n ≤ (sums f l a).n := by
  intro l
  induction l with
  | nil => intro f a _ ha; exact ⟨ha.1, ha.2.1, ha.2.2, le_refl _⟩
  | cons g l ih =>
      intro f a hx ha
      have hf := hx f (by simp)
      have hg := hx g (by simp)
      simp only [sums]
      set dt : ℝ := ((g.time - f.time : ℤ) : ℝ) / 1000 with hdt
      by_cases h1 : dt < 0.01
      · rw [if_pos h1]
        exact ih f a (fun t ht => hx t (by
          rcases List.mem_cons.1 ht with h | h
          · exact h ▸ List.mem_cons_self ..
          · exact List.mem_cons_of_mem _ (List.mem_cons_of_mem _ h))) ha
      rw [if_neg h1]
      by_cases h2 : 4 < dt
      · rw [if_pos h2]
        exact ih g a (fun t ht => hx t (List.mem_cons_of_mem _ ht)) ha
      rw [if_neg h2]
      have hpos : 0 < dt := by norm_num at h1 ⊢; linarith
      have hd : g.loc.place - f.loc.place = v * (dt : ℝ) := by
        rw [hf, hg, hdt]; push_cast; ring
      have hre : (g.loc.place - f.loc.place).re = v.re * dt := by rw [hd, Complex.mul_re]; simp
      have him : (g.loc.place - f.loc.place).im = v.im * dt := by rw [hd, Complex.mul_im]; simp
      have hdd : (⟨(g.loc.place - f.loc.place).re - (g.loc.place - f.loc.place).im, (g.loc.place - f.loc.place).im - 0⟩ : ℂ) =
          (dt : ℂ) * skew v := by
        rw [hre, him]
        apply Complex.ext
        · simp [skew]; ring
        · simp [skew]; ring
      have harg : arg (⟨(g.loc.place - f.loc.place).re - (g.loc.place - f.loc.place).im, (g.loc.place - f.loc.place).im - 0⟩ : ℂ) =
          arg (skew v) := by rw [hdd, Complex.arg_real_mul _ hpos]
      have hsp : Real.sqrt (((g.loc.place - f.loc.place).im - 0) * ((g.loc.place - f.loc.place).im - 0) +
          ((g.loc.place - f.loc.place).re - (g.loc.place - f.loc.place).im) *
            ((g.loc.place - f.loc.place).re - (g.loc.place - f.loc.place).im)) / dt = ‖skew v‖ := by
        have := speed_eq (⟨(g.loc.place - f.loc.place).re - (g.loc.place - f.loc.place).im, (g.loc.place - f.loc.place).im - 0⟩ : ℂ)
        simp only at this
        rw [this, hdd, norm_mul, Complex.norm_real, Real.norm_of_nonneg hpos.le]
        field_simp
      have := ih g { speed := a.speed + ‖skew v‖, cosine := a.cosine + Real.cos (Real.pi / 2 - arg (skew v)), sine := a.sine + Real.sin (Real.pi / 2 - arg (skew v)), n := a.n + 1 } (fun t ht => hx t (List.mem_cons_of_mem _ ht))
        ⟨by simp only [ha.1]; push_cast; ring, by simp only [ha.2.1]; push_cast; ring, by simp only [ha.2.2]; push_cast; ring⟩
      rw [hsp, harg]
      refine ⟨this.1, this.2.1, this.2.2.1, ?_⟩
      have h4 := this.2.2.2
      simp only at h4
      omega

/-- The motion that is taken for a window of states in uniform motion. -/
theorem motion_const {x v : ℂ} {f g : Track} {l : List Track}
    (hx : ∀ t ∈ f :: g :: l, t.loc.place = x + v * ((t.time : ℝ) / 1000 : ℝ)) (h1 : f.time + 10 ≤ g.time)
    (h2 : g.time ≤ f.time + 4000) :
    (motion (f :: g :: l)).1 * Real.sin ((motion (f :: g :: l)).2 * (Real.pi / 180)) = v.re - v.im ∧
    (motion (f :: g :: l)).1 * Real.cos ((motion (f :: g :: l)).2 * (Real.pi / 180)) = v.im := by
  have hc := sums_const (g :: l) f {} hx ⟨by simp, by simp, by simp⟩
  -- at least one sample
  have hn : 0 < (sums f (g :: l) {}).n := by
    have hd1 : ¬ ((g.time - f.time : ℤ) : ℝ) / 1000 < 0.01 := by
      have : (10 : ℝ) ≤ ((g.time - f.time : ℤ) : ℝ) := by exact_mod_cast (by omega : (10 : ℤ) ≤ g.time - f.time)
      rw [not_lt]; norm_num1; linarith
    have hd2 : ¬ 4 < ((g.time - f.time : ℤ) : ℝ) / 1000 := by
      have : ((g.time - f.time : ℤ) : ℝ) ≤ 4000 := by exact_mod_cast (by omega : g.time - f.time ≤ 4000)
      rw [not_lt]; linarith
    have hone := sums_const (x := x) (v := v) [g] f {} (fun t ht => hx t (by
      rcases List.mem_cons.1 ht with h | h
      · exact h ▸ List.mem_cons_self ..
      · rw [List.mem_singleton] at h; subst h; simp)) ⟨by simp, by simp, by simp⟩
    simp only [sums] at hone ⊢
    rw [if_neg hd1, if_neg hd2] at hone ⊢
    have := (sums_const l g _ (fun t ht => hx t (List.mem_cons_of_mem _ ht)) ⟨hone.1, hone.2.1, hone.2.2.1⟩).2.2.2
    simp only at this
    omega
  obtain ⟨c1, c2, c3, -⟩ := hc
  have hm : motion (f :: g :: l) = ((sums f (g :: l) {}).speed / (sums f (g :: l) {}).n,
      arg ⟨(sums f (g :: l) {}).cosine, (sums f (g :: l) {}).sine⟩ * (180 / Real.pi)) := by
    simp only [motion]
    rw [if_pos hn]
  rw [hm]
  set N : ℝ := ((sums f (g :: l) {}).n : ℝ) with hN
  have hNpos : 0 < N := by rw [hN]; exact_mod_cast hn
  simp only
  rw [c1, c2, c3]
  set h := Real.pi / 2 - arg (skew v) with hh
  have e1 : N * ‖skew v‖ / N = ‖skew v‖ := by field_simp
  have e2 : arg ⟨N * Real.cos h, N * Real.sin h⟩ * (180 / Real.pi) * (Real.pi / 180) = arg ⟨N * Real.cos h, N * Real.sin h⟩ := by
    have := Real.pi_pos; field_simp
  rw [e1, e2]
  have hz : (⟨N * Real.cos h, N * Real.sin h⟩ : ℂ) ≠ 0 := by
    intro h0
    have a := congrArg Complex.re h0
    have b := congrArg Complex.im h0
    simp only [Complex.zero_re, Complex.zero_im, mul_eq_zero, hNpos.ne', false_or] at a b
    have := Real.sin_sq_add_cos_sq h
    rw [a, b] at this; norm_num at this
  have hnorm : ‖(⟨N * Real.cos h, N * Real.sin h⟩ : ℂ)‖ = N := by
    have := norm_sq (⟨N * Real.cos h, N * Real.sin h⟩ : ℂ)
    simp only at this
    have e : (N * Real.cos h) ^ 2 + (N * Real.sin h) ^ 2 = N ^ 2 := by
      have := Real.sin_sq_add_cos_sq h
      linear_combination N ^ 2 * this
    rw [e] at this
    exact (pow_left_inj₀ (norm_nonneg _) hNpos.le two_ne_zero).1 this
  rw [Complex.cos_arg hz, Complex.sin_arg, hnorm]
  simp only
  have f1 : N * Real.sin h / N = Real.sin h := by field_simp
  have f2 : N * Real.cos h / N = Real.cos h := by field_simp
  rw [f1, f2, hh, Real.sin_pi_div_two_sub, Real.cos_pi_div_two_sub, Complex.norm_mul_cos_arg, Complex.norm_mul_sin_arg]
  exact ⟨rfl, rfl⟩

/-- What is computed for a watched entity in uniform motion with velocity `v` (east as real, north as imaginary part). -/
theorem overwatch_const {w : Watch} {x v : ℂ} {f g t : Track} {l : List Track} (hw : w.window = f :: g :: l)
    (hx : ∀ t ∈ w.window, t.loc.place = x + v * ((t.time : ℝ) / 1000 : ℝ)) (h1 : f.time + 10 ≤ g.time) (h2 : g.time ≤ f.time + 4000)
    (ht : w.last = some t) {now : ℤ} (hn : t.time + 100 < now) (hn' : now ≤ t.time + 15000) :
    overwatch w now = some ⟨t.loc.place + ((now - t.time : ℤ) / 1000 : ℝ) * ⟨v.re - v.im, v.im⟩, t.loc.altitude⟩ := by
  rw [hw] at hx
  obtain ⟨m1, m2⟩ := motion_const hx h1 h2
  unfold overwatch
  simp only [ht]
  rw [if_neg (by omega), if_pos (by omega), hw]
  simp only [Option.some.injEq, Loc.mk.injEq, and_true, add_right_inj]
  apply Complex.ext
  · simp only [Complex.re_ofReal_mul]
    rw [← m1]; ring
  · simp only [Complex.im_ofReal_mul]
    rw [← m2]; ring

/-- **C152**, what holds: a watched entity that goes east or west, or rests, is expected where it will be.  Missing from the full
claim: any other direction, see `C152_north_violated`. -/
theorem C152_east_partial {w : Watch} {x : ℂ} {v : ℝ} {f g t : Track} {l : List Track} (hw : w.window = f :: g :: l)
    (hx : ∀ t ∈ w.window, t.loc.place = x + v * ((t.time : ℝ) / 1000 : ℝ)) (h1 : f.time + 10 ≤ g.time) (h2 : g.time ≤ f.time + 4000)
    (ht : w.last = some t) (htw : t ∈ w.window) {now : ℤ} (hn : t.time + 100 < now) (hn' : now ≤ t.time + 15000) :
    overwatch w now = some ⟨x + v * ((now : ℝ) / 1000 : ℝ), t.loc.altitude⟩ := by
  rw [overwatch_const hw hx h1 h2 ht hn hn', hx t htw]
  congr 2
  apply Complex.ext <;> simp
  ring

/-- **C152, violated**: the east component of a motion is computed as the difference of an east and a north coordinate, so a
watched entity in uniform motion is expected off its way, by what it goes to the north in the time. -/
theorem C152_north_violated {w : Watch} {x v : ℂ} {f g t : Track} {l : List Track} (hw : w.window = f :: g :: l)
    (hx : ∀ t ∈ w.window, t.loc.place = x + v * ((t.time : ℝ) / 1000 : ℝ)) (h1 : f.time + 10 ≤ g.time) (h2 : g.time ≤ f.time + 4000)
    (ht : w.last = some t) (htw : t ∈ w.window) {now : ℤ} (hn : t.time + 100 < now) (hn' : now ≤ t.time + 15000) :
    ∃ r, overwatch w now = some r ∧
      r.place - (x + v * ((now : ℝ) / 1000 : ℝ)) = (-(v.im * ((now - t.time : ℤ) / 1000)) : ℝ) := by
  refine ⟨_, overwatch_const hw hx h1 h2 ht hn hn', ?_⟩
  rw [hx t htw]
  apply Complex.ext <;> simp <;> ring

/-! ### Relay -/

/-- **C153.**  A relay goes to the place halfway between the tower and what it supports, at its nominal altitude. -/
theorem C153_between {towerState towerConfig : Option ℂ} {t x : ℂ} (ht : towerState = some t ∨ (towerState = none ∧ towerConfig = some t))
    (own : Loc) (nominal : Option ℝ) :
    ‖(relay towerState towerConfig (some x) own nominal).place - t‖ = ‖x - t‖ / 2 ∧
    ‖(relay towerState towerConfig (some x) own nominal).place - x‖ = ‖x - t‖ / 2 ∧
    (relay towerState towerConfig (some x) own nominal).altitude = nominal.getD own.altitude := by
  have ho : towerState.or towerConfig = some t := by
    rcases ht with h | ⟨h1, h2⟩
    · rw [h]; rfl
    · rw [h1, h2]; rfl
  unfold relay halfWay
  simp only [ho]
  refine ⟨?_, ?_, trivial⟩
  · have e : (⟨(t.re + x.re) / 2, (t.im + x.im) / 2⟩ : ℂ) - t = ((1 / 2 : ℝ) : ℂ) * (x - t) := by
      apply Complex.ext <;> simp <;> ring
    rw [e, norm_mul, Complex.norm_real]; norm_num; ring
  · have e : (⟨(t.re + x.re) / 2, (t.im + x.im) / 2⟩ : ℂ) - x = ((-(1 / 2) : ℝ) : ℂ) * (x - t) := by
      apply Complex.ext <;> simp <;> ring
    rw [e, norm_mul, Complex.norm_real]; norm_num; ring

/-- **C153.**  No place is better: from any other one, the tower or what is supported is at least as far away. -/
theorem C153_best {towerState towerConfig : Option ℂ} {t x : ℂ} (ht : towerState = some t ∨ (towerState = none ∧ towerConfig = some t))
    (own : Loc) (nominal : Option ℝ) (y : ℂ) :
    max ‖(relay towerState towerConfig (some x) own nominal).place - t‖ ‖(relay towerState towerConfig (some x) own nominal).place - x‖ ≤
      max ‖y - t‖ ‖y - x‖ := by
  obtain ⟨h1, h2, -⟩ := C153_between (x := x) ht own nominal
  rw [h1, h2, max_self]
  have h3 : ‖x - t‖ ≤ ‖y - t‖ + ‖y - x‖ := by
    have e : x - t = (y - t) - (y - x) := by ring
    rw [e]; exact norm_sub_le _ _
  have h4 := le_max_left ‖y - t‖ ‖y - x‖
  have h5 := le_max_right ‖y - t‖ ‖y - x‖
  linarith

/-- **C153.**  Without a tower, or with nothing to support, the relay stays over the place where it is. -/
theorem C153_stays (towerConfig towerState supported : Option ℂ) (own : Loc) (nominal : Option ℝ)
    (h : supported = none ∨ (towerState = none ∧ towerConfig = none)) :
    (relay towerState towerConfig supported own nominal).place = own.place := by
  unfold relay halfWay
  rcases h with h | ⟨h1, h2⟩
  · rw [h]
  · cases supported with
    | none => rfl
    | some x => simp [h1, h2]

/-- **C153.**  What is supported is where it was last heard of, or where it was when the task began. -/
theorem C153_supported (id : ℤ) (first : Option ℂ) (hs : List (ℤ × ℂ)) :
    hs.foldl (fun x h => relayState id x h.1 h.2) first = ((hs.filter (fun h => h.1 = id)).getLast?.map Prod.snd).or first := by
  induction hs using List.reverseRecOn with
  | nil => simp
  | append_singleton hs h ih =>
      rw [List.foldl_append, List.foldl_cons, List.foldl_nil, ih, relayState]
      by_cases hw : h.1 = id
      · rw [if_pos hw, List.filter_append, List.filter_cons_of_pos (by simpa using hw)]
        simp
      · rw [if_neg hw, List.filter_append, List.filter_cons_of_neg (by simpa using hw)]
        simp

end Verif.Dynamic
