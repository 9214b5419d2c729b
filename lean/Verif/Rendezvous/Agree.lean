import Verif.Rendezvous.Speed

/-!
# C136: the vehicles agree on the time to meet, and what becomes of their commands
-/

namespace Verif.Rendezvous

open Real

/-- Conversion towards zero, without regard to the range. -/
noncomputable def cut (x : ℝ) : ℤ := open Classical in if 0 ≤ x then ⌊x⌋ else ⌈x⌉

theorem toInt64_cut {x : ℝ} {n : ℤ} (h : toInt64 x = .ok n) : n = cut x := by
  unfold toInt64 at h
  unfold cut
  dsimp only at h
  by_cases h0 : 0 ≤ x
  · rw [if_pos h0] at h ⊢
    split at h
    · exact (Outcome.ok.inj h).symm
    · cases h
  · rw [if_neg h0] at h ⊢
    split at h
    · exact (Outcome.ok.inj h).symm
    · cases h

/-- The times of a vehicle with ordered speeds whose distance is new. -/
noncomputable def spanOf (configs : Map Cfg) (e : ℤ × ℤ × ℝ) : Span :=
  match configs.get e.1 with
  | some c =>
    match c.air with
    | some (lo, hi, _) => ⟨cut (e.2.2 / c.nominal * 1000), cut (e.2.2 / lo * 1000), cut (e.2.2 / hi * 1000)⟩
    | none => ⟨0, 0, 0⟩
  | none => ⟨0, 0, 0⟩

theorem span_eq {configs : Map Cfg} {e : ℤ × ℤ × ℝ} {c : Cfg} {lo hi bank : ℝ} (hc : configs.get e.1 = some c)
    (ha : c.air = some (lo, hi, bank)) {s : Span} (h : SpanOf (lo, hi, c.nominal) e.2.2 0 s) : s = spanOf configs e := by
  obtain ⟨h1, h2, h3⟩ := h
  unfold spanOf
  rw [hc]
  dsimp only
  rw [ha]
  dsimp only at h1 h2 h3 ⊢
  simp only [Int.cast_zero, sub_zero] at h1 h2 h3
  cases s
  rw [Span.mk.injEq]
  exact ⟨toInt64_cut h1, toInt64_cut h2, toInt64_cut h3⟩

theorem picked_all {configs : Map Cfg} {self : ℤ} {nom : ℝ} {now : ℤ} : ∀ {others : List (ℤ × ℤ × ℝ)} {ss : List Span},
    (∀ e ∈ others, e.2.1 = now ∧ nom ≤ e.2.2 ∧ ∃ c, configs.get e.1 = some c ∧ c.Ordered ∧
      ∃ s, SpanOf (speedClip c.air c.nominal nom) e.2.2 0 s ∧ 1000 < s.mid) →
    Picked configs self nom now others ss → ss = (others.filter (·.1 != self)).map (spanOf configs) := by
  intro others ss hall h
  induction h with
  | nil => rfl
  | @take e more s ss h hm ih =>
    rw [ih fun x hx => hall x (List.mem_cons_of_mem _ hx)]
    obtain ⟨h1, h2, c, hc, ⟨lo, hi, bank, ha, o1, o2, o3⟩, _⟩ := hall e List.mem_cons_self
    obtain ⟨k1, k2, ⟨c', hc', hs⟩, _⟩ := h
    rw [hc] at hc'
    obtain rfl := Option.some.inj hc'
    rw [clip_ordered ha o1 o2 o3, h1, show age now now = 0 by simp [age]] at hs
    rw [List.filter_cons_of_pos (by simpa using k2), List.map_cons, ← span_eq hc ha hs]
  | @skip e more ss h hm ih =>
    rw [ih fun x hx => hall x (List.mem_cons_of_mem _ hx)]
    by_cases he : e.1 = self
    · rw [List.filter_cons_of_neg (by simp [he])]
    · obtain ⟨h1, h2, c, hc, ⟨lo, hi, bank, ha, o1, o2, o3⟩, s, hs, hm'⟩ := hall e List.mem_cons_self
      exact absurd ⟨h2, he, ⟨c, hc, by rw [h1, show age now now = 0 by simp [age]]; exact hs⟩, hm', by
        rw [h1, show age now now = 0 by simp [age]]; norm_num⟩ (h s)

theorem meet_perm {s t : Span} {ss ts : List Span} (h : (s :: ss).Perm (t :: ts)) :
    meetingTime (ss.foldl Window.add s.window) = meetingTime (ts.foldl Window.add t.window) := by
  obtain ⟨a1, ⟨a2, a3, a4⟩, a5, a6, a7⟩ := fold_add ss s.window
  obtain ⟨b1, ⟨b2, b3, b4⟩, b5, b6, b7⟩ := fold_add ts t.window
  generalize ss.foldl Window.add s.window = u at *
  generalize ts.foldl Window.add t.window = v at *
  have eu : ∀ x ∈ s :: ss, x.first ≤ u.first ∧ u.last ≤ x.last := by
    intro x hx
    rcases List.mem_cons.1 hx with rfl | hx
    · exact ⟨a2, a5⟩
    · exact ⟨a3 x hx, a6 x hx⟩
  have ev : ∀ x ∈ t :: ts, x.first ≤ v.first ∧ v.last ≤ x.last := by
    intro x hx
    rcases List.mem_cons.1 hx with rfl | hx
    · exact ⟨b2, b5⟩
    · exact ⟨b3 x hx, b6 x hx⟩
  have fu : ∃ x ∈ s :: ss, u.first = x.first := by
    rcases a4 with h | ⟨x, hx, h⟩
    · exact ⟨s, by simp, h⟩
    · exact ⟨x, by simp [hx], h⟩
  have fv : ∃ x ∈ t :: ts, v.first = x.first := by
    rcases b4 with h | ⟨x, hx, h⟩
    · exact ⟨t, by simp, h⟩
    · exact ⟨x, by simp [hx], h⟩
  have lu : ∃ x ∈ s :: ss, u.last = x.last := by
    rcases a7 with h | ⟨x, hx, h⟩
    · exact ⟨s, by simp, h⟩
    · exact ⟨x, by simp [hx], h⟩
  have lv : ∃ x ∈ t :: ts, v.last = x.last := by
    rcases b7 with h | ⟨x, hx, h⟩
    · exact ⟨t, by simp, h⟩
    · exact ⟨x, by simp [hx], h⟩
  have e1 : u.first = v.first := by
    obtain ⟨x, hx, e⟩ := fu
    obtain ⟨y, hy, f⟩ := fv
    exact le_antisymm (e ▸ (ev x (h.mem_iff.1 hx)).1) (f ▸ (eu y (h.mem_iff.2 hy)).1)
  have e2 : u.last = v.last := by
    obtain ⟨x, hx, e⟩ := lu
    obtain ⟨y, hy, f⟩ := lv
    exact le_antisymm (f ▸ (eu y (h.mem_iff.2 hy)).2) (e ▸ (ev x (h.mem_iff.1 hx)).2)
  have hp : u.times.Perm v.times := by
    rw [a1, b1]
    exact h.map (·.mid)
  unfold meetingTime
  rw [e1, e2, hp.sum_eq, hp.length_eq]

theorem perm_self {D : List (ℤ × ℤ × ℝ)} (hD : (D.map (·.1)).Nodup) {e : ℤ × ℤ × ℝ} (he : e ∈ D) :
    (e :: D.filter (·.1 != e.1)).Perm D := by
  induction D with
  | nil => cases he
  | cons x D ih =>
    rw [List.map_cons, List.nodup_cons] at hD
    rcases List.mem_cons.1 he with rfl | he
    · rw [List.filter_cons_of_neg (by simp)]
      have : D.filter (·.1 != e.1) = D := by
        rw [List.filter_eq_self]
        intro y hy
        have : y.1 ≠ e.1 := fun c => hD.1 (c ▸ List.mem_map_of_mem hy)
        simpa using this
      rw [this]
    · have hx : x.1 ≠ e.1 := fun c => hD.1 (c ▸ List.mem_map_of_mem he)
      rw [List.filter_cons_of_pos (by simpa using hx)]
      exact (List.Perm.swap x e _).trans ((ih hD.2 he).cons x)

/-- Vehicle `e` of a list of remaining distances is far enough for itself and for the others to count, and its configuration
is in order. -/
def Able (configs : Map Cfg) (now : ℤ) (D : List (ℤ × ℤ × ℝ)) (e : ℤ × ℤ × ℝ) : Prop :=
  e.2.1 = now ∧ ∃ c lo hi bank, configs.get e.1 = some c ∧ c.air = some (lo, hi, bank) ∧ 1 / 10000 ≤ lo ∧ lo ≤ c.nominal ∧
    c.nominal ≤ hi ∧ (∀ x ∈ D, c.nominal ≤ x.2.2) ∧ ∃ s, SpanOf (lo, hi, c.nominal) e.2.2 0 s ∧ 1000 < s.mid

/-- **C136.**  The vehicles agree: if the remaining distances `D` of all vehicles are new, every vehicle is able to, and all know
all (in any order), the commands for any two of them are those for one and the same time to meet. -/
theorem C136_agree {configs : Map Cfg} {now : ℤ} {D : List (ℤ × ℤ × ℝ)} (hD : (D.map (·.1)).Nodup)
    (hall : ∀ e ∈ D, Able configs now D e) :
    ∃ meet : ℤ, ∀ (st : Ent) (dist v : ℝ) (others : List (ℤ × ℤ × ℝ)) (c : Cfg) (lo hi bank : ℝ),
      (st.id, now, dist) ∈ D → others.Perm D → st.time = now → configs.get st.id = some c → c.air = some (lo, hi, bank) →
      active configs others st dist = .ok (some v) → v = command lo hi c.nominal dist meet := by
  cases D with
  | nil => exact ⟨0, fun st dist v others c lo hi bank h => by cases h⟩
  | cons d D' =>
    refine ⟨meetingTime (((D'.map (spanOf configs))).foldl Window.add (spanOf configs d).window), ?_⟩
    intro st dist v others c lo hi bank hmem hperm ht hc ha h
    obtain ⟨_, c', lo', hi', bank', g1, g2, o1, o2, o3, o4, s0, hs0, _⟩ := hall _ hmem
    dsimp only at g1
    rw [hc] at g1
    obtain rfl := Option.some.inj g1
    rw [ha] at g2
    cases g2
    obtain ⟨s, ss, hs, hp, hv⟩ := C136_active hc ha o1 o2 o3 h
    rw [hv]
    congr 1
    have hss := picked_all (by
      intro e he
      obtain ⟨h1, c2, lo2, hi2, bank2, k1, k2, p1, p2, p3, _, s2, hs2, hm2⟩ := hall e (hperm.mem_iff.1 he)
      refine ⟨by rw [h1, ht], o4 e (hperm.mem_iff.1 he), c2, k1, ⟨lo2, hi2, bank2, k2, p1, p2, p3⟩, s2, ?_, hm2⟩
      rw [clip_ordered k2 p1 p2 p3]
      exact hs2) hp
    have hsp : s = spanOf configs (st.id, now, dist) := span_eq (e := (st.id, now, dist)) hc ha hs
    apply meet_perm
    rw [hss, hsp, ← List.map_cons, ← List.map_cons]
    apply List.Perm.map
    have hself := perm_self hD hmem
    exact ((hperm.filter _).cons _).trans hself

/-- The message sent with a command: a `VehicleActionCommand` whose action is a `SpeedOverrideAction`
(RendezvousTask.cpp 645-652), as the steering service sees it (SteeringService.cpp 380-393: it looks for
`FlightDirectorAction` only). -/
def commandMsg (vehicle : ℤ) : Steering.Msg := .command vehicle [.other]

/-- **C136, violated: the commands have no effect.**  The steering service takes a speed from a `SpeedOverrideAction` that is
sent by itself; the task sends it inside a `VehicleActionCommand`.  For every history, everything the service sends with the
commands is what it sends without them. -/
theorem C136_followed_violated (cfg : Steering.Config) (t0 : ℤ) (l0 : Bool) (before later : List (ℤ × Steering.Msg)) (t vehicle : ℤ) :
    Steering.sent cfg t0 l0 (before ++ (t, commandMsg vehicle) :: later) =
      (Steering.sent cfg t0 l0 (before ++ later)).take before.length ++ [] ::
        (Steering.sent cfg t0 l0 (before ++ later)).drop before.length := by
  have hstep : ∀ s : Steering.S, Steering.step s (t, commandMsg vehicle) = (s, []) := by
    intro s
    simp [Steering.step, commandMsg, Steering.Action.isDirector]
  unfold Steering.sent
  rw [runM_append, runM_append, runM_cons, hstep]
  have hl := runM_length Steering.step before (Steering.S.init cfg t0 l0)
  dsimp only
  rw [← hl, List.take_left, List.drop_left]

end Verif.Rendezvous
