import Verif.Rendezvous.Plan
import Verif.Steering.Props

/-!
# C136: speeds on the way to the meeting
-/

namespace Verif.Rendezvous

open Real

/-! ## The speed commanded -/

/-- The limits used: smallest, largest and nominal speed. -/
theorem clip_order {air : Option (ℝ × ℝ × ℝ)} {nominal nom : ℝ} (h : 1 / 10000 ≤ nom) :
    1 / 10000 ≤ (speedClip air nominal nom).1 ∧ (speedClip air nominal nom).1 ≤ (speedClip air nominal nom).2.2 ∧
      (speedClip air nominal nom).2.2 ≤ (speedClip air nominal nom).2.1 := by
  unfold speedClip
  cases air with
  | none => exact ⟨h, le_refl _, le_refl _⟩
  | some a =>
    obtain ⟨lo, hi, bank⟩ := a
    dsimp only
    have hn : 1 / 10000 ≤ (if nominal < 1 / 10000 then nom else nominal) := by
      split
      · exact h
      · rename_i h1; exact not_lt.1 h1
    generalize (if nominal < 1 / 10000 then nom else nominal) = n at *
    refine ⟨?_, ?_, ?_⟩
    · split
      · exact hn
      · rename_i h1; exact not_lt.1 fun c => h1 (.inl c)
    · split
      · exact le_refl _
      · rename_i h1; exact not_lt.1 fun c => h1 (.inr c)
    · split
      · exact le_refl _
      · rename_i h1; exact not_lt.1 h1

/-- A configuration whose speeds are in order. -/
def Cfg.Ordered (c : Cfg) : Prop := ∃ lo hi bank, c.air = some (lo, hi, bank) ∧ 1 / 10000 ≤ lo ∧ lo ≤ c.nominal ∧ c.nominal ≤ hi

theorem clip_ordered {c : Cfg} {nom : ℝ} {lo hi bank : ℝ} (ha : c.air = some (lo, hi, bank)) (h0 : 1 / 10000 ≤ lo)
    (h1 : lo ≤ c.nominal) (h2 : c.nominal ≤ hi) : speedClip c.air c.nominal nom = (lo, hi, c.nominal) := by
  rw [ha]
  unfold speedClip
  dsimp only
  have : ¬c.nominal < 1 / 10000 := by linarith
  simp only [if_neg this]
  rw [if_neg (by push Not; exact ⟨h0, h1⟩), if_neg (by linarith)]

theorem command_limits {lo hi nom dist : ℝ} {meet : ℤ} (h : lo ≤ hi) :
    lo ≤ command lo hi nom dist meet ∧ command lo hi nom dist meet ≤ hi := by
  unfold command
  exact ⟨le_max_left _ _, max_le h (min_le_left _ _)⟩

/-- **C136.**  Every speed commanded is at least 10^-4 m/s, and within the limits of the vehicle's configuration if those are in
order. -/
theorem C136_limits {configs : Map Cfg} {others : List (ℤ × ℤ × ℝ)} {st : Ent} {dist v : ℝ}
    (h : active configs others st dist = .ok (some v)) :
    1 / 10000 ≤ v ∧ ∃ c, configs.get st.id = some c ∧ ∀ lo hi bank, c.air = some (lo, hi, bank) → 1 / 10000 ≤ lo →
      lo ≤ c.nominal → c.nominal ≤ hi → lo ≤ v ∧ v ≤ hi := by
  unfold active at h
  cases hc : configs.get st.id with
  | none => rw [hc] at h; cases h
  | some c =>
    rw [hc] at h
    dsimp only at h
    cases ha : c.air with
    | none => rw [ha] at h; cases h
    | some a =>
      rw [ha] at h
      dsimp only at h
      generalize (if c.nominal < 1 / 10000 then st.airspeed.getD st.ground else c.nominal) = n0 at h
      split at h
      · cases h
      rename_i hn
      have hord := clip_order (air := some a) (nominal := c.nominal) (not_lt.1 hn)
      have hall : ∀ lo hi bank, c.air = some (lo, hi, bank) → 1 / 10000 ≤ lo → lo ≤ c.nominal → c.nominal ≤ hi → ∀ nom,
          speedClip (some a) c.nominal nom = (lo, hi, c.nominal) := by
        intro lo hi bank e h0 h1 h2 nom
        rw [← ha]
        exact clip_ordered e h0 h1 h2
      generalize hcl : speedClip (some a) c.nominal _ = cl at *
      obtain ⟨lo, hi, nom⟩ := cl
      dsimp only at h hord
      rw [Outcome.bind_eq_ok] at h
      obtain ⟨mid, _, h⟩ := h
      rw [Outcome.bind_eq_ok] at h
      obtain ⟨last, _, h⟩ := h
      rw [Outcome.bind_eq_ok] at h
      obtain ⟨first, _, h⟩ := h
      rw [Outcome.bind_eq_ok] at h
      obtain ⟨w, _, h⟩ := h
      obtain rfl := Option.some.inj (Outcome.ok.inj h)
      have hl := command_limits (nom := nom) (dist := dist) (meet := meetingTime w) (hord.2.1.trans hord.2.2)
      refine ⟨hord.1.trans hl.1, c, rfl, ?_⟩
      intro lo' hi' bank e h0 h1 h2
      have := hall lo' hi' bank e h0 h1 h2
      have e2 := this _ ▸ hcl
      cases e2
      exact hl

/-- **C136.**  If the vehicle is to meet in more than a second, is farther than the way of a second, and can fly the speed `s`
that takes it there in time: faster than nominal, it is commanded at least `s`; slower, at most `s`; otherwise exactly the
nominal speed. -/
theorem C136_direction {lo hi nom dist : ℝ} {meet : ℤ} (hm : 1000 < meet) (hd : nom < dist) (h1 : lo ≤ nom) (h2 : nom ≤ hi)
    (h3 : lo ≤ dist / (meet / 1000)) (h4 : dist / (meet / 1000) ≤ hi) :
    (nom < dist / (meet / 1000) → dist / (meet / 1000) ≤ command lo hi nom dist meet) ∧
    (dist / (meet / 1000) < nom → command lo hi nom dist meet ≤ dist / (meet / 1000)) ∧
    (dist / (meet / 1000) = nom → command lo hi nom dist meet = nom) := by
  unfold command
  rw [if_pos ⟨hm, hd⟩]
  generalize dist / ((meet : ℝ) / 1000) = s at *
  dsimp only
  rw [min_eq_right h4, max_eq_right h3]
  refine ⟨fun h => ?_, fun h => ?_, fun h => ?_⟩
  · exact le_max_of_le_right (le_min h4 (by linarith))
  · exact max_le h3 ((min_le_right _ _).trans (by linarith))
  · subst h
    rw [sub_self, mul_zero, add_zero, min_eq_right h4, max_eq_right h3]

/-- **C136.**  Within a second of the meeting, or of the way of a second, the nominal speed is commanded. -/
theorem C136_coast {lo hi nom dist : ℝ} {meet : ℤ} (h : meet ≤ 1000 ∨ dist ≤ nom) (h1 : lo ≤ nom) (h2 : nom ≤ hi) :
    command lo hi nom dist meet = nom := by
  unfold command
  rw [if_neg (fun c => by rcases h with h | h; exacts [absurd c.1 (not_lt.2 h), absurd c.2 (not_lt.2 h)])]
  dsimp only
  rw [sub_self, mul_zero, add_zero, min_eq_right h2, max_eq_right h1]

/-! ## When to meet -/

/-- What the loop makes of a vehicle: the time at its nominal speed, the last and the first time it can be there. -/
structure Span where
  mid : ℤ
  last : ℤ
  first : ℤ

/-- The times of a vehicle with the limits `cl` after `dt`: rounded towards zero. -/
def SpanOf (cl : ℝ × ℝ × ℝ) (dist : ℝ) (dt : ℤ) (s : Span) : Prop :=
  toInt64 (dist / cl.2.2 * 1000 - dt) = .ok s.mid ∧ toInt64 (dist / cl.1 * 1000 - dt) = .ok s.last ∧
    toInt64 (dist / cl.2.1 * 1000 - dt) = .ok s.first

/-- The age of what is known of another vehicle. -/
def age (now time : ℤ) : ℤ := max 0 (now - time)

/-- Another vehicle counts: it is farther than `nom` metres, not this vehicle, farther than a second, and what is known of it
is less than 5 seconds old. -/
def Counts (configs : Map Cfg) (self : ℤ) (nom : ℝ) (now : ℤ) (e : ℤ × ℤ × ℝ) (s : Span) : Prop :=
  nom ≤ e.2.2 ∧ e.1 ≠ self ∧ (∃ c, configs.get e.1 = some c ∧ SpanOf (speedClip c.air c.nominal nom) e.2.2 (age now e.2.1) s) ∧
    1000 < s.mid ∧ age now e.2.1 < 5000

/-- The window with another vehicle. -/
def Window.add (w : Window) (s : Span) : Window :=
  { times := w.times ++ [s.mid], last := min s.last w.last, first := max s.first w.first }

theorem age_eq (now time : ℤ) : (if now - time < 0 then 0 else now - time) = age now time := by
  unfold age
  split <;> omega

theorem toInt64_inj {x : ℝ} {a b : ℤ} (h1 : toInt64 x = .ok a) (h2 : toInt64 x = .ok b) : a = b := by
  rw [h1] at h2
  exact Outcome.ok.inj h2

/-- One round of the loop. -/
theorem gather_cons {configs : Map Cfg} {self : ℤ} {nom : ℝ} {now : ℤ} {e : ℤ × ℤ × ℝ} {more : List (ℤ × ℤ × ℝ)} {w w' : Window}
    (h : gather configs self nom now (e :: more) w = .ok w') :
    (∃ s, Counts configs self nom now e s ∧ gather configs self nom now more (w.add s) = .ok w') ∨
      ((∀ s, ¬Counts configs self nom now e s) ∧ gather configs self nom now more w = .ok w') := by
  obtain ⟨id, time, dist⟩ := e
  unfold gather at h
  by_cases h1 : dist < nom
  · rw [if_pos h1] at h
    exact .inr ⟨fun s c => absurd c.1 (not_le.2 h1), h⟩
  rw [if_neg h1] at h
  by_cases h2 : id = self
  · rw [if_pos h2] at h
    exact .inr ⟨fun s c => c.2.1 h2, h⟩
  rw [if_neg h2] at h
  cases hc : configs.get id with
  | none => rw [hc] at h; cases h
  | some c =>
    rw [hc] at h
    dsimp only at h
    rw [age_eq, Outcome.bind_eq_ok] at h
    obtain ⟨mid, hmid, h⟩ := h
    rw [Outcome.bind_eq_ok] at h
    obtain ⟨last, hlast, h⟩ := h
    rw [Outcome.bind_eq_ok] at h
    obtain ⟨first, hfirst, h⟩ := h
    by_cases h3 : mid > 1000 ∧ age now time < 5000
    · rw [if_pos h3] at h
      exact .inl ⟨⟨mid, last, first⟩, ⟨not_lt.1 h1, h2, ⟨c, hc, hmid, hlast, hfirst⟩, h3.1, h3.2⟩, h⟩
    · rw [if_neg h3] at h
      refine .inr ⟨?_, h⟩
      rintro s ⟨_, _, ⟨c', hc', hm, _, _⟩, k1, k2⟩
      rw [hc] at hc'
      obtain rfl := Option.some.inj hc'
      exact h3 ⟨by rw [toInt64_inj hmid hm]; exact k1, k2⟩

/-- **C136.**  The window in which all can meet: for every list of vehicles, in every order, a time is in the window found
exactly if this vehicle and every vehicle that counts can be there at that time. -/
theorem C136_window {configs : Map Cfg} {self : ℤ} {nom : ℝ} {now : ℤ} : ∀ {others : List (ℤ × ℤ × ℝ)} {w w' : Window},
    gather configs self nom now others w = .ok w' → ∀ r : ℤ,
    (w'.first ≤ r ∧ r ≤ w'.last) ↔ (w.first ≤ r ∧ r ≤ w.last) ∧
      ∀ e ∈ others, ∀ s, Counts configs self nom now e s → s.first ≤ r ∧ r ≤ s.last
  | [], w, w', h, r => by
    obtain rfl := Outcome.ok.inj h
    simp
  | e :: more, w, w', h, r => by
    rcases gather_cons h with ⟨s, hs, h'⟩ | ⟨hs, h'⟩
    · rw [C136_window h' r]
      have huniq : ∀ s', Counts configs self nom now e s' → s' = s := by
        rintro s' ⟨_, _, ⟨c1, g1, m1, m2, m3⟩, _, _⟩
        obtain ⟨_, _, ⟨c2, g2, n1, n2, n3⟩, _, _⟩ := hs
        rw [g1] at g2
        obtain rfl := Option.some.inj g2
        cases s; cases s'
        simp only [Span.mk.injEq]
        exact ⟨toInt64_inj m1 n1, toInt64_inj m2 n2, toInt64_inj m3 n3⟩
      simp only [Window.add, List.mem_cons, forall_eq_or_imp, max_le_iff, le_min_iff]
      constructor
      · rintro ⟨⟨⟨a, b⟩, c, d⟩, f⟩
        refine ⟨⟨b, d⟩, ?_, f⟩
        intro s' hs'
        rw [huniq s' hs']
        exact ⟨a, c⟩
      · rintro ⟨⟨b, d⟩, g, f⟩
        obtain ⟨a, c⟩ := g s hs
        exact ⟨⟨⟨a, b⟩, c, d⟩, f⟩
    · rw [C136_window h' r]
      simp only [List.mem_cons, forall_eq_or_imp]
      constructor
      · rintro ⟨a, f⟩
        exact ⟨a, fun s' hs' => absurd hs' (hs s'), f⟩
      · rintro ⟨a, _, f⟩
        exact ⟨a, f⟩

/-- The times of the vehicles that count, in the order of the list. -/
inductive Picked (configs : Map Cfg) (self : ℤ) (nom : ℝ) (now : ℤ) : List (ℤ × ℤ × ℝ) → List Span → Prop
  | nil : Picked configs self nom now [] []
  | take {e : ℤ × ℤ × ℝ} {more : List (ℤ × ℤ × ℝ)} {s : Span} {ss : List Span} (h : Counts configs self nom now e s)
    (hm : Picked configs self nom now more ss) : Picked configs self nom now (e :: more) (s :: ss)
  | skip {e : ℤ × ℤ × ℝ} {more : List (ℤ × ℤ × ℝ)} {ss : List Span} (h : ∀ s, ¬Counts configs self nom now e s)
    (hm : Picked configs self nom now more ss) : Picked configs self nom now (e :: more) ss

theorem gather_spec {configs : Map Cfg} {self : ℤ} {nom : ℝ} {now : ℤ} : ∀ {others : List (ℤ × ℤ × ℝ)} {w w' : Window},
    gather configs self nom now others w = .ok w' →
    ∃ ss, Picked configs self nom now others ss ∧ w' = ss.foldl Window.add w
  | [], w, w', h => ⟨[], .nil, (Outcome.ok.inj h).symm⟩
  | e :: more, w, w', h => by
    rcases gather_cons h with ⟨s, hs, h'⟩ | ⟨hs, h'⟩
    · obtain ⟨ss, h1, h2⟩ := gather_spec h'
      exact ⟨s :: ss, .take hs h1, h2⟩
    · obtain ⟨ss, h1, h2⟩ := gather_spec h'
      exact ⟨ss, .skip hs h1, h2⟩

theorem fold_add : ∀ (ss : List Span) (w : Window), (ss.foldl Window.add w).times = w.times ++ ss.map (·.mid) ∧
    (w.first ≤ (ss.foldl Window.add w).first ∧ (∀ s ∈ ss, s.first ≤ (ss.foldl Window.add w).first) ∧
      ((ss.foldl Window.add w).first = w.first ∨ ∃ s ∈ ss, (ss.foldl Window.add w).first = s.first)) ∧
    ((ss.foldl Window.add w).last ≤ w.last ∧ (∀ s ∈ ss, (ss.foldl Window.add w).last ≤ s.last) ∧
      ((ss.foldl Window.add w).last = w.last ∨ ∃ s ∈ ss, (ss.foldl Window.add w).last = s.last))
  | [], w => by simp
  | s :: ss, w => by
    obtain ⟨h1, ⟨h2, h3, h4⟩, h5, h6, h7⟩ := fold_add ss (w.add s)
    rw [List.foldl_cons]
    generalize ss.foldl Window.add (w.add s) = r at *
    simp only [Window.add] at h1 h2 h4 h5 h7
    rw [max_le_iff] at h2
    rw [le_min_iff] at h5
    refine ⟨by rw [h1]; simp, ⟨h2.2, ?_, ?_⟩, h5.2, ?_, ?_⟩
    · intro x hx
      rcases List.mem_cons.1 hx with rfl | hx
      · exact h2.1
      · exact h3 x hx
    · rcases h4 with h4 | ⟨x, hx, h4⟩
      · rcases max_choice s.first w.first with c | c
        · exact .inr ⟨s, by simp, by rw [h4, c]⟩
        · exact .inl (by rw [h4, c])
      · exact .inr ⟨x, by simp [hx], h4⟩
    · intro x hx
      rcases List.mem_cons.1 hx with rfl | hx
      · exact h5.1
      · exact h6 x hx
    · rcases h7 with h7 | ⟨x, hx, h7⟩
      · rcases min_choice s.last w.last with c | c
        · exact .inr ⟨s, by simp, by rw [h7, c]⟩
        · exact .inl (by rw [h7, c])
      · exact .inr ⟨x, by simp [hx], h7⟩

/-- The window of a vehicle alone. -/
def Span.window (s : Span) : Window := { times := [s.mid], last := s.last, first := s.first }

/-- **C136.**  The command for a vehicle: with its own times at nominal, smallest and largest speed and those of the vehicles
that count, the speed is that for the meeting time of their common window. -/
theorem C136_active {configs : Map Cfg} {others : List (ℤ × ℤ × ℝ)} {st : Ent} {dist v : ℝ} {c : Cfg} {lo hi bank : ℝ}
    (hc : configs.get st.id = some c) (ha : c.air = some (lo, hi, bank)) (h0 : 1 / 10000 ≤ lo) (h1 : lo ≤ c.nominal)
    (h2 : c.nominal ≤ hi) (h : active configs others st dist = .ok (some v)) :
    ∃ s ss, SpanOf (lo, hi, c.nominal) dist 0 s ∧ Picked configs st.id c.nominal st.time others ss ∧
      v = command lo hi c.nominal dist (meetingTime (ss.foldl Window.add s.window)) := by
  unfold active at h
  rw [hc] at h
  dsimp only at h
  rw [show c.air = some (lo, hi, bank) from ha] at h
  dsimp only at h
  have hn : ¬c.nominal < 1 / 10000 := by linarith
  simp only [if_neg hn] at h
  rw [← ha, clip_ordered ha h0 h1 h2] at h
  dsimp only at h
  rw [Outcome.bind_eq_ok] at h
  obtain ⟨mid, e1, h⟩ := h
  rw [Outcome.bind_eq_ok] at h
  obtain ⟨last, e2, h⟩ := h
  rw [Outcome.bind_eq_ok] at h
  obtain ⟨first, e3, h⟩ := h
  rw [Outcome.bind_eq_ok] at h
  obtain ⟨w, e4, h⟩ := h
  obtain ⟨ss, g1, g2⟩ := gather_spec e4
  refine ⟨⟨mid, last, first⟩, ss, ⟨?_, ?_, ?_⟩, g1, ?_⟩
  · simpa using e1
  · simpa using e2
  · simpa using e3
  · rw [g2] at h
    exact (Option.some.inj (Outcome.ok.inj h)).symm

/-- The sum of the squares of the waiting times. -/
def cost (times : List ℤ) (r : ℤ) : ℤ := (times.map fun t => (r - t) ^ 2).sum

theorem cost_diff (r m : ℤ) : ∀ times : List ℤ,
    cost times r - cost times m = (r - m) * ((r + m) * times.length - 2 * times.sum)
  | [] => by simp [cost]
  | t :: times => by
    have := cost_diff r m times
    simp only [cost, List.map_cons, List.sum_cons, List.length_cons] at this ⊢
    push_cast
    linarith

/-- **C136.**  If there is a window, the time chosen lies in it; and up to rounding (one per vehicle) no other time of the window
has a smaller sum of squared deviations from the times at nominal speed. -/
theorem C136_best {w : Window} (hw : w.first ≤ w.last) (hne : w.times ≠ []) (hpos : 0 ≤ w.times.sum) :
    w.first ≤ meetingTime w ∧ meetingTime w ≤ w.last ∧
      ∀ r, w.first ≤ r → r ≤ w.last → cost w.times (meetingTime w) ≤ cost w.times r + w.times.length := by
  unfold meetingTime
  rw [if_pos hw]
  have hn : (0 : ℤ) < w.times.length := by
    have := List.length_pos_iff.2 hne
    omega
  rw [Int.tdiv_eq_ediv_of_nonneg hpos]
  have q1 := Int.mul_ediv_self_le (x := w.times.sum) (k := w.times.length) hn.ne'
  have q2 := Int.lt_mul_ediv_self_add (x := w.times.sum) (k := w.times.length) hn
  generalize w.times.sum / (w.times.length : ℤ) = q at *
  refine ⟨le_max_left _ _, max_le hw (min_le_left _ _), ?_⟩
  intro r r1 r2
  have key := cost_diff r (max w.first (min w.last q)) w.times
  have goal : -(w.times.length : ℤ) ≤ cost w.times r - cost w.times (max w.first (min w.last q)) := by
    rw [key]
    generalize (w.times.length : ℤ) = n at *
    generalize w.times.sum = S at *
    rcases le_total w.last q with h | h
    · rw [min_eq_left h, max_eq_right hw]
      have a : (r + w.last) * n - 2 * S ≤ 0 := by nlinarith
      have := mul_nonneg_of_nonpos_of_nonpos (by omega : r - w.last ≤ 0) a
      omega
    · rw [min_eq_right h]
      rcases le_total w.first q with h' | h'
      · rw [max_eq_right h']
        rcases lt_trichotomy r q with c | c | c
        · have a : (r + q) * n - 2 * S ≤ 0 := by nlinarith
          have := mul_nonneg_of_nonpos_of_nonpos (by omega : r - q ≤ 0) a
          omega
        · subst c; simp; omega
        · -- with d = r - q ≥ 1 : d * ((2 q + d) n - 2 S) ≥ d * (d n - 2 n) ≥ - n
          have a : (r - q) * n - 2 * n ≤ (r + q) * n - 2 * S := by nlinarith
          have b := mul_le_mul_of_nonneg_left a (by omega : 0 ≤ r - q)
          have e : (r - q) * ((r - q) * n - 2 * n) = ((r - q - 1) * (r - q - 1)) * n - n := by ring
          rw [e] at b
          have := mul_nonneg (mul_self_nonneg (r - q - 1)) hn.le
          omega
      · rw [max_eq_left h']
        rcases eq_or_lt_of_le h' with h'' | h''
        · subst h''
          rcases eq_or_lt_of_le r1 with c | c
          · subst c; simp; omega
          · have a : (r - w.first) * n - 2 * n ≤ (r + w.first) * n - 2 * S := by nlinarith
            have b := mul_le_mul_of_nonneg_left a (by omega : 0 ≤ r - w.first)
            have e : (r - w.first) * ((r - w.first) * n - 2 * n) = ((r - w.first - 1) * (r - w.first - 1)) * n - n := by ring
            rw [e] at b
            have := mul_nonneg (mul_self_nonneg (r - w.first - 1)) hn.le
            omega
        · have a : 0 ≤ (r + w.first) * n - 2 * S := by nlinarith
          have := mul_nonneg (by omega : 0 ≤ r - w.first) a
          omega
  omega

/-- **C136, violated without a window.**  If the vehicles cannot meet, the time chosen is not between the last time of the one
and the first time of the other, as intended, but after both; with a gap of two milliseconds or more, strictly. -/
theorem C136_centre_violated {w : Window} (hw : w.last < w.first) :
    w.first ≤ meetingTime w ∧ (w.last + 2 ≤ w.first → w.first < meetingTime w) := by
  unfold meetingTime
  rw [if_neg (by omega), Int.tdiv_eq_ediv_of_nonneg (by omega)]
  omega

/-- **C136, violated for vehicles without configuration.**  If the remaining distance of a vehicle is known, far enough, but not
its configuration, the command for any other vehicle is undefined behaviour: the end of a map is read. -/
theorem C136_unknown_violated {configs : Map Cfg} {self : ℤ} {nom : ℝ} {now : ℤ} {id time : ℤ} {dist : ℝ}
    (h1 : nom ≤ dist) (h2 : id ≠ self) (h3 : configs.get id = none) : ∀ {others : List (ℤ × ℤ × ℝ)} {w : Window},
    (id, time, dist) ∈ others → gather configs self nom now others w = .ub := by
  intro others
  induction others with
  | nil => intro w h; cases h
  | cons e more ih =>
    intro w h
    rcases List.mem_cons.1 h with rfl | hmem
    · unfold gather
      rw [if_neg (not_lt.2 h1), if_neg h2, h3]
    · obtain ⟨id', time', dist'⟩ := e
      have hub : ∀ x, toInt64 x = .ub ∨ ∃ n, toInt64 x = .ok n := by
        intro x
        unfold toInt64
        dsimp only
        generalize (if 0 ≤ x then ⌊x⌋ else ⌈x⌉) = n
        by_cases hr : -9223372036854775808 ≤ n ∧ n ≤ 9223372036854775807
        · exact .inr ⟨_, if_pos hr⟩
        · exact .inl (if_neg hr)
      unfold gather
      split
      · exact ih hmem
      split
      · exact ih hmem
      cases configs.get id' with
      | none => rfl
      | some c =>
        dsimp only
        rcases hub (dist' / (speedClip c.air c.nominal nom).2.2 * 1000 - (if now - time' < 0 then 0 else now - time' : ℤ)) with e1 | ⟨a, e1⟩
        · rw [e1]; rfl
        rw [e1, Outcome.bind_ok]
        rcases hub (dist' / (speedClip c.air c.nominal nom).1 * 1000 - (if now - time' < 0 then 0 else now - time' : ℤ)) with e2 | ⟨b, e2⟩
        · rw [e2]; rfl
        rw [e2, Outcome.bind_ok]
        rcases hub (dist' / (speedClip c.air c.nominal nom).2.1 * 1000 - (if now - time' < 0 then 0 else now - time' : ℤ)) with e3 | ⟨d, e3⟩
        · rw [e3]; rfl
        rw [e3, Outcome.bind_ok]
        exact ih hmem

end Verif.Rendezvous
