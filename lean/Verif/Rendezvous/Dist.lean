import Verif.Rendezvous.Plan

/-!
# C137: the distance that remains
-/

namespace Verif.Rendezvous

open Real Verif.Earth

/-- The waypoint with index `i` is the first of the mission with that number. -/
def First (ws : List Wp) (number : ℤ) (i : ℕ) : Prop :=
  (∃ w, ws[i]? = some w ∧ w.number = number) ∧ ∀ j w, j < i → ws[j]? = some w → w.number ≠ number

/-- The waypoint with index `i` is one of those flown for the task. -/
def OnTask (ws : List Wp) (task : ℤ) (i : ℕ) : Prop := ∃ w, ws[i]? = some w ∧ task ∈ w.rest.tasks

/-- Waypoint `i` links to waypoint `j`. -/
def Linked (ws : List Wp) (i j : ℕ) : Prop := ∃ w, ws[i]? = some w ∧ First ws w.next j

/-- The waypoints a vehicle on its way to the waypoint `number` has still to fly for the task: from that one along the links, as
long as they are the task's, each once. -/
inductive Ahead (ws : List Wp) (task : ℤ) : ℤ → List ℕ → List Wp → Prop
  /-- there is no such waypoint -/
  | lost {number passed} : (∀ w ∈ ws, w.number ≠ number) → Ahead ws task number passed []
  /-- it is not the task's -/
  | left {number passed i} : First ws number i → ¬ OnTask ws task i → Ahead ws task number passed []
  /-- it has been counted -/
  | again {number passed i} : First ws number i → i ∈ passed → Ahead ws task number passed []
  | on {number passed i w more} : First ws number i → ws[i]? = some w → task ∈ w.rest.tasks → i ∉ passed →
      Ahead ws task w.next (i :: passed) more → Ahead ws task number passed (w :: more)

/-- The length of a way over points of the plane. -/
noncomputable def lengthOver : ℝ × ℝ → List (ℝ × ℝ) → ℝ
  | _, [] => 0
  | a, b :: more => √((b.1 - a.1) ^ 2 + (b.2 - a.2) ^ 2) + lengthOver b more

/-- The position of the vehicle, in radians. -/
noncomputable def Ent.origin (st : Ent) : ℝ × ℝ := (radians .deg st.lat, radians .deg st.lon)

theorem find_first {ws : List Wp} {n : ℤ} :
    (findIndex ws n < ws.length ∧ First ws n (findIndex ws n)) ∨
      (findIndex ws n = ws.length ∧ ∀ w ∈ ws, w.number ≠ n) := by
  unfold findIndex
  by_cases h : ws.findIdx (·.number == n) < ws.length
  · left
    refine ⟨h, ⟨⟨ws[ws.findIdx (·.number == n)], List.getElem?_eq_getElem h, ?_⟩, ?_⟩⟩
    · have := List.findIdx_getElem (p := (·.number == n)) (xs := ws) (w := h)
      simpa using this
    · intro j w hj hw
      obtain ⟨hl, rfl⟩ := List.getElem?_eq_some_iff.1 hw
      have := List.not_of_lt_findIdx hj
      simpa using this
  · right
    have e := le_antisymm List.findIdx_le_length (not_lt.1 h)
    refine ⟨e, fun w hw hc => ?_⟩
    rw [List.findIdx_eq_length] at e
    have := e w hw
    simp [hc] at this

theorem First.unique {ws : List Wp} {n : ℤ} {i j : ℕ} (h1 : First ws n i) (h2 : First ws n j) : i = j := by
  obtain ⟨⟨w, hw, hn⟩, hm⟩ := h1
  obtain ⟨⟨v, hv, hn'⟩, hm'⟩ := h2
  rcases lt_trichotomy i j with h | h | h
  · exact absurd hn (hm' i w h hw)
  · exact h
  · exact absurd hn' (hm j v h hv)

theorem First.not_lost {ws : List Wp} {n : ℤ} {i : ℕ} (h1 : First ws n i) (h : ∀ w ∈ ws, w.number ≠ n) : False := by
  obtain ⟨⟨v, hv, e⟩, _⟩ := h1
  exact h v (List.mem_of_getElem? hv) e

/-- One list is ahead. -/
theorem Ahead.unique {ws : List Wp} {task : ℤ} {n : ℤ} {passed : List ℕ} {p q : List Wp} (h1 : Ahead ws task n passed p)
    (h2 : Ahead ws task n passed q) : p = q := by
  induction h1 generalizing q with
  | lost h =>
    cases h2 with
    | on hf hw => exact (hf.not_lost h).elim
    | _ => rfl
  | left hf hn =>
    cases h2 with
    | on hf' hw ht =>
      cases hf.unique hf'
      exact absurd ⟨_, hw, ht⟩ hn
    | _ => rfl
  | again hf hn =>
    cases h2 with
    | on hf' hw ht hp =>
      cases hf.unique hf'
      exact absurd hn hp
    | _ => rfl
  | on hf hw ht hp _ ih =>
    cases h2 with
    | lost h => exact (hf.not_lost h).elim
    | left hf' hn =>
      cases hf.unique hf'
      exact absurd ⟨_, hw, ht⟩ hn
    | again hf' hn =>
      cases hf.unique hf'
      exact absurd hn hp
    | on hf' hw' _ _ hm =>
      cases hf.unique hf'
      rw [hw] at hw'
      cases hw'
      rw [ih hm]

/-- The loop ends within as many rounds as there are waypoints, and one. -/
theorem remaining_ends {asserts : Bool} {task : ℤ} {ws : List Wp} {o : ℝ × ℝ} : ∀ {fuel : ℕ} {passed : List ℕ} {n : ℤ}
    {z : ℝ × ℝ}, passed.Nodup → (∀ i ∈ passed, i < ws.length) → findIndex ws n ∉ passed → ws.length + 1 ≤ fuel + passed.length →
    0 < fuel →
    ∃ p, Ahead ws task n passed p ∧
      remaining asserts task ws (at_ o) fuel (findIndex ws n :: passed) (findIndex ws n) z.2 z.1 =
        some (.ok (lengthOver z (p.map (Extend.plane o)))) := by
  intro fuel
  induction fuel with
  | zero => intro passed n z _ _ _ _ h; omega
  | succ fuel ih =>
    intro passed n z hnd hlt hnot hfuel _
    unfold remaining
    rcases find_first (ws := ws) (n := n) with ⟨hi, hf⟩ | ⟨hi, hno⟩
    swap
    · refine ⟨[], .lost hno, ?_⟩
      rw [hi, List.getElem?_eq_none (le_refl _)]
      rfl
    · have hw := List.getElem?_eq_getElem hi
      generalize ws[findIndex ws n] = w at hw
      rw [hw]
      dsimp only
      by_cases ht : task ∈ w.rest.tasks
      swap
      · refine ⟨[], .left hf ?_, ?_⟩
        · rintro ⟨v, hv, hv'⟩
          rw [hw] at hv
          cases hv
          exact ht hv'
        · rw [if_pos (by simpa using ht)]
          rfl
      rw [if_neg (by simpa using ht), Extend.toNorthEast_plane]
      dsimp only
      generalize hi' : findIndex ws n = i at *
      have hnd' : (i :: passed).Nodup := List.nodup_cons.2 ⟨hnot, hnd⟩
      have hlt' : ∀ k ∈ i :: passed, k < ws.length := by
        intro k hk
        rcases List.mem_cons.1 hk with rfl | hk
        · exact hi
        · exact hlt k hk
      have hsub : (i :: passed).length ≤ ws.length := by
        have h1 : (i :: passed) ⊆ List.range ws.length := fun k hk => List.mem_range.2 (hlt' k hk)
        have := (List.subperm_of_subset hnd' h1).length_le
        simpa using this
      have hleg : √(((Extend.plane o w).2 - z.2) * ((Extend.plane o w).2 - z.2) + ((Extend.plane o w).1 - z.1) * ((Extend.plane o w).1 - z.1)) =
          √(((Extend.plane o w).1 - z.1) ^ 2 + ((Extend.plane o w).2 - z.2) ^ 2) := by
        congr 1
        ring
      rw [hleg]
      by_cases hj : findIndex ws w.next ∈ i :: passed
      · rw [if_pos hj]
        refine ⟨[w], .on hf hw ht hnot ?_, ?_⟩
        · rcases find_first (ws := ws) (n := w.next) with ⟨_, hf'⟩ | ⟨he, _⟩
          · exact .again hf' hj
          · have := hlt' _ hj
            omega
        · simp [lengthOver]
      · rw [if_neg hj]
        obtain ⟨p, hp, hr⟩ := ih (passed := i :: passed) (n := w.next) (z := Extend.plane o w) hnd' hlt' hj (by
          rw [List.length_cons]; omega) (by rw [List.length_cons] at hsub; omega)
        refine ⟨w :: p, .on hf hw ht hnot hp, ?_⟩
        rw [hr]
        rfl

/-- **C137.**  The distance that remains is the length of the way from the vehicle over the waypoints ahead: those of its
mission from the one it flies to along the links, as long as they belong to the task, each counted once — with loops, links to
themselves and links that lead nowhere.  The loop always ends, and nothing in it is undefined. -/
theorem C137_distance (asserts : Bool) (task : ℤ) (ws : List Wp) (st : Ent) :
    ∃ p, Ahead ws task st.cur [] p ∧ (∀ q, Ahead ws task st.cur [] q → q = p) ∧
      arrivalDistance asserts task (some ws) st = .ok (lengthOver (0, 0) (p.map (Extend.plane st.origin))) := by
  obtain ⟨p, hp, hr⟩ := remaining_ends (asserts := asserts) (task := task) (ws := ws) (o := st.origin) (fuel := ws.length + 2)
    (passed := []) (n := st.cur) (z := (0, 0)) (by simp) (by simp) (by simp) (by simp) (by omega)
  refine ⟨p, hp, fun q hq => hq.unique hp, ?_⟩
  unfold arrivalDistance
  dsimp only
  have : ({} : Earth).initialize asserts (st.lat * degToRad) (st.lon * degToRad) = .ok (at_ st.origin) :=
    initialize_new asserts _ _
  rw [this, Outcome.bind_ok, hr]
  rfl

/-- **C137.**  Without a mission nothing remains. -/
theorem C137_none (asserts : Bool) (task : ℤ) (st : Ent) : arrivalDistance asserts task none st = .ok 0 := rfl

theorem first_of_nodup {ws : List Wp} (hn : (ws.map (·.number)).Nodup) {i : ℕ} {w : Wp} (hw : ws[i]? = some w) :
    First ws w.number i := by
  refine ⟨⟨w, hw, rfl⟩, fun j v hj hv hc => ?_⟩
  obtain ⟨h1, rfl⟩ := List.getElem?_eq_some_iff.1 hw
  obtain ⟨h2, rfl⟩ := List.getElem?_eq_some_iff.1 hv
  have := (List.Nodup.getElem_inj_iff hn (i := j) (hi := by simpa using h2) (j := i) (hj := by simpa using h1)).1 (by simpa using hc)
  omega

/-- In a mission whose waypoints have distinct numbers and are linked in their order, the waypoints from `i` up to `k` are
ahead if they are the task's and the mission ends at `k`, with a link of the last to itself or to nowhere, or goes on with a
waypoint that is not the task's. -/
theorem ahead_straight {ws : List Wp} {task : ℤ} (hn : (ws.map (·.number)).Nodup)
    (hl : ∀ j a b, ws[j]? = some a → ws[j + 1]? = some b → a.next = b.number) {k : ℕ} (hk : k ≤ ws.length)
    (hend : (∃ b, ws[k]? = some b ∧ task ∉ b.rest.tasks) ∨
      (k = ws.length ∧ ∀ a, ws.getLast? = some a → a.next = a.number ∨ ∀ w ∈ ws, w.number ≠ a.next)) :
    ∀ (m i : ℕ) (a : Wp) (passed : List ℕ), i + m = k → ws[i]? = some a → (∀ j ∈ passed, j < i) → 0 < m →
      (∀ j w, i ≤ j → j < k → ws[j]? = some w → task ∈ w.rest.tasks) →
      Ahead ws task a.number passed ((ws.drop i).take m) := by
  intro m
  induction m with
  | zero => intro i a passed _ _ _ h; omega
  | succ m ih =>
    intro i a passed hik ha hp _ hon
    obtain ⟨hi, rfl⟩ := List.getElem?_eq_some_iff.1 ha
    rw [List.drop_eq_getElem_cons hi, List.take_succ_cons]
    have hp' : ∀ j ∈ i :: passed, j < i + 1 := by
      intro j hj
      rcases List.mem_cons.1 hj with rfl | hj
      · omega
      · have := hp j hj; omega
    refine .on (first_of_nodup hn ha) ha (hon i _ (le_refl _) (by omega) ha) (fun h => (lt_irrefl _ (hp i h))) ?_
    by_cases hm : m = 0
    · subst hm
      rw [List.take_zero]
      rcases hend with ⟨b, hb, hbt⟩ | ⟨hke, hlast⟩
      · rw [hl i _ b ha (by rw [hik]; exact hb)]
        refine .left (first_of_nodup hn hb) ?_
        rintro ⟨w, hw, hwt⟩
        rw [hb] at hw
        cases hw
        exact hbt hwt
      · have : ws.getLast? = some ws[i] := by
          rw [List.getLast?_eq_getElem?, ← hke, ← hik]
          exact ha
        rcases hlast _ this with e | e
        · rw [e]
          exact .again (first_of_nodup hn ha) (by simp)
        · exact .lost e
    · have hb := List.getElem?_eq_getElem (show i + 1 < ws.length by omega)
      rw [hl i _ _ ha hb]
      exact ih (i + 1) _ (i :: passed) (by omega) hb hp' (by omega) fun j w h1 h2 => hon j w (by omega) h2

/-- **C137.**  For a mission whose waypoints have distinct numbers and are linked in their order, the distance that remains on
the way to waypoint `i` is the length of the way over the waypoints from `i` up to `k`, where the part of the task or the
mission ends. -/
theorem C137_mission (asserts : Bool) {task : ℤ} {ws : List Wp} {st : Ent} (hn : (ws.map (·.number)).Nodup)
    (hl : ∀ j a b, ws[j]? = some a → ws[j + 1]? = some b → a.next = b.number) {i k : ℕ} (hik : i < k) (hk : k ≤ ws.length)
    (hcur : ∃ a, ws[i]? = some a ∧ a.number = st.cur)
    (hon : ∀ j w, i ≤ j → j < k → ws[j]? = some w → task ∈ w.rest.tasks)
    (hend : (∃ b, ws[k]? = some b ∧ task ∉ b.rest.tasks) ∨
      (k = ws.length ∧ ∀ a, ws.getLast? = some a → a.next = a.number ∨ ∀ w ∈ ws, w.number ≠ a.next)) :
    arrivalDistance asserts task (some ws) st =
      .ok (lengthOver (0, 0) (((ws.drop i).take (k - i)).map (Extend.plane st.origin))) := by
  obtain ⟨p, _, hu, h⟩ := C137_distance asserts task ws st
  obtain ⟨a, ha, e⟩ := hcur
  have := ahead_straight hn hl hk hend (k - i) i a [] (by omega) ha (by simp) (by omega) hon
  rw [e] at this
  rw [h, hu _ this]

theorem lengthOver_straight (a : ℝ × ℝ) (p : List (ℝ × ℝ)) (b : ℝ × ℝ) :
    √((b.1 - a.1) ^ 2 + (b.2 - a.2) ^ 2) ≤ lengthOver a (p ++ [b]) := by
  induction p generalizing a with
  | nil => simp [lengthOver]
  | cons c p ih =>
    rw [List.cons_append, lengthOver]
    have h2 := ih c
    have h3 : √((b.1 - a.1) ^ 2 + (b.2 - a.2) ^ 2) ≤
        √((c.1 - a.1) ^ 2 + (c.2 - a.2) ^ 2) + √((b.1 - c.1) ^ 2 + (b.2 - c.2) ^ 2) := by
      rw [Real.sqrt_le_left (by positivity)]
      generalize hx : c.1 - a.1 = x
      generalize hy : c.2 - a.2 = y
      generalize hu : b.1 - c.1 = u
      generalize hv : b.2 - c.2 = v
      have e1 : b.1 - a.1 = x + u := by rw [← hx, ← hu]; ring
      have e2 : b.2 - a.2 = y + v := by rw [← hy, ← hv]; ring
      rw [e1, e2]
      have s1 := Real.sq_sqrt (show 0 ≤ x ^ 2 + y ^ 2 by positivity)
      have s2 := Real.sq_sqrt (show 0 ≤ u ^ 2 + v ^ 2 by positivity)
      have h : x * u + y * v ≤ √(x ^ 2 + y ^ 2) * √(u ^ 2 + v ^ 2) := by
        rw [← Real.sqrt_mul (by positivity)]
        apply Real.le_sqrt_of_sq_le
        nlinarith [sq_nonneg (x * v - y * u)]
      nlinarith
    linarith

/-- **C137.**  The distance that remains is at least the straight distance to the last waypoint ahead. -/
theorem C137_straight (asserts : Bool) {task : ℤ} {ws : List Wp} {st : Ent} {p : List Wp} {w : Wp} {d : ℝ}
    (hp : Ahead ws task st.cur [] (p ++ [w])) (h : arrivalDistance asserts task (some ws) st = .ok d) :
    √((Extend.plane st.origin w).1 ^ 2 + (Extend.plane st.origin w).2 ^ 2) ≤ d := by
  obtain ⟨q, _, hu, e⟩ := C137_distance asserts task ws st
  rw [← hu _ hp, h] at e
  rw [Outcome.ok.inj e, List.map_append]
  have := lengthOver_straight (0, 0) (p.map (Extend.plane st.origin)) (Extend.plane st.origin w)
  simpa using this

end Verif.Rendezvous
