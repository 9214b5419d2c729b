import Verif.Rendezvous.Model

/-!
# C135: from when the vehicles are free to meet
-/

namespace Verif.Rendezvous

/-- The time a message gives for a vehicle in a request, if it is about a task of the vehicle before the meeting, or the first
request for the meeting: the start of a task asked for, the end of a task answered. -/
def Note.own (task req vehicle : ℤ) : Note → Option ℤ
  | .implRequest r v _ start => if r = req ∧ v = vehicle then some start else none
  | .implResponse r v t final => if r = req ∧ v = vehicle ∧ t ≠ task then some final else none
  | _ => none

/-- Whether a message asks the vehicle to meet. -/
def Note.meets (task req vehicle : ℤ) : Note → Bool
  | .implRequest r v t _ => r == req && v == vehicle && t == task
  | _ => false

/-- Whether a message ends the request. -/
def Note.ends (req : ℤ) : Note → Bool
  | .done r => r == req
  | _ => false

/-- The messages up to the first request for the vehicle to meet, that one included. -/
def upToMeeting (task req vehicle : ℤ) : List Note → List Note
  | [] => []
  | n :: ns => if n.meets task req vehicle then [n] else n :: upToMeeting task req vehicle ns

/-- The assignment last received for a request. -/
def lastSummary (req : ℤ) (ns : List Note) : Option (List Asg) :=
  (ns.filterMap fun | .summary r l => if r = req then some l else none | _ => none).getLast?

/-- What is known of a vehicle: the last time given for it up to its first request to meet. -/
def ownTime (task req vehicle : ℤ) (ns : List Note) : Option ℤ :=
  ((upToMeeting task req vehicle ns).filterMap (Note.own task req vehicle)).getLast?

/-- The start of the first request of any vehicle that came when the assignment named the vehicle. -/
def assumed (req vehicle : ℤ) (ns : List Note) : List Note → Option ℤ
  | [] => none
  | n :: more =>
    match n with
    | .implRequest r _ _ start =>
      if r = req ∧ ∃ l, lastSummary req ns = some l ∧ ∃ a ∈ l, a.vehicle = vehicle then some start
      else assumed req vehicle (ns ++ [n]) more
    | _ => assumed req vehicle (ns ++ [n]) more

/-- The state after a list of messages. -/
def Times.after (task : ℤ) (ns : List Note) : Times := ns.foldl (Times.step task) {}

/-- The start time of a vehicle in a request. -/
def Times.of (t : Times) (req vehicle : ℤ) : Option ℤ := (t.start.get req).bind (·.get vehicle)

theorem of_setStart (t : Times) (r v time req vehicle : ℤ) :
    (t.setStart r v time).of req vehicle = if r = req ∧ v = vehicle then some time else t.of req vehicle := by
  unfold Times.of Times.setStart
  rw [Map.get_put]
  by_cases hr : req = r
  · subst hr
    rw [if_pos rfl, Option.bind_some, Map.get_put]
    by_cases hv : vehicle = v
    · subst hv; simp
    · rw [if_neg hv, if_neg (fun h => hv h.2.symm)]
      cases h : t.start.get req <;> simp [Map.get]
  · rw [if_neg hr, if_neg (fun h => hr h.1.symm)]

theorem fill_other : ∀ (req time : ℤ) (l : List Asg) (t : Times),
    (t.fill req time l).summary = t.summary ∧ (t.fill req time l).met = t.met
  | _, _, [], _ => ⟨rfl, rfl⟩
  | req, time, a :: l, t => by
    unfold Times.fill
    obtain ⟨h1, h2⟩ := fill_other req time l
      (if (((t.start.get req).getD []).get a.vehicle).isNone then t.setStart req a.vehicle time else t)
    rw [h1, h2]
    split <;> exact ⟨rfl, rfl⟩

theorem of_fill (req vehicle : ℤ) : ∀ (r time : ℤ) (l : List Asg) (t : Times),
    (t.fill r time l).of req vehicle =
      (t.of req vehicle).or (if r = req ∧ ∃ a ∈ l, a.vehicle = vehicle then some time else none)
  | r, time, [], t => by simp [Times.fill]
  | r, time, a :: l, t => by
    unfold Times.fill
    rw [of_fill req vehicle r time l]
    have hiff : ((t.start.get r).getD []).get a.vehicle = t.of r a.vehicle := by
      unfold Times.of
      cases t.start.get r <;> simp [Map.get]
    rw [hiff]
    by_cases hr : r = req
    · subst hr
      by_cases hv : a.vehicle = vehicle
      · subst hv
        cases h : t.of r a.vehicle with
        | none => simp [of_setStart]
        | some x => simp [h]
      · split
        · rw [of_setStart, if_neg (fun h => hv h.2)]
          simp [hv]
        · simp [hv]
    · split
      · rw [of_setStart, if_neg (fun h => hr h.1)]
        simp [hr]
      · simp [hr]

theorem upToMeeting_snoc (task req vehicle : ℤ) (n : Note) : ∀ ns : List Note,
    upToMeeting task req vehicle (ns ++ [n]) =
      upToMeeting task req vehicle ns ++ (if ns.any (·.meets task req vehicle) then [] else [n])
  | [] => by simp [upToMeeting]
  | m :: ns => by
    rw [List.cons_append]
    unfold upToMeeting
    rw [upToMeeting_snoc task req vehicle n ns]
    by_cases h : m.meets task req vehicle = true <;> simp [h]

theorem lastSummary_snoc (req : ℤ) (ns : List Note) (n : Note) :
    lastSummary req (ns ++ [n]) =
      match n with
      | .summary r l => if r = req then some l else lastSummary req ns
      | _ => lastSummary req ns := by
  unfold lastSummary
  rw [List.filterMap_append]
  cases n with
  | summary r l => by_cases h : r = req <;> simp [h]
  | _ => simp

theorem assumed_snoc (req vehicle : ℤ) (n : Note) : ∀ (ms ns : List Note),
    assumed req vehicle ns (ms ++ [n]) = (assumed req vehicle ns ms).or
      (match n with
        | .implRequest r _ _ start =>
          if r = req ∧ ∃ l, lastSummary req (ns ++ ms) = some l ∧ ∃ a ∈ l, a.vehicle = vehicle then some start else none
        | _ => none)
  | [], ns => by
    cases n <;> simp [assumed]
  | m :: ms, ns => by
    have ih := assumed_snoc req vehicle n ms (ns ++ [m])
    rw [List.append_assoc, List.singleton_append] at ih
    rw [List.cons_append]
    unfold assumed
    cases m with
    | implRequest r v t start =>
      dsimp only
      split
      · simp
      · exact ih
    | _ => exact ih

theorem ownTime_snoc (task req vehicle : ℤ) (ns : List Note) (n : Note) :
    ownTime task req vehicle (ns ++ [n]) =
      if ns.any (·.meets task req vehicle) then ownTime task req vehicle ns
      else (n.own task req vehicle).or (ownTime task req vehicle ns) := by
  unfold ownTime
  rw [upToMeeting_snoc]
  by_cases h : ns.any (·.meets task req vehicle) = true
  · simp [h]
  · rw [if_neg h, if_neg h, List.filterMap_append]
    cases hn : n.own task req vehicle <;> simp [hn]

/-- What holds after messages none of which ended the request. -/
structure Known (task req : ℤ) (ns : List Note) (t : Times) : Prop where
  summary : t.summary.get req = lastSummary req ns
  met : ∀ v, t.isMet req v = ns.any (·.meets task req v)
  times : ∀ v, t.of req v = (ownTime task req v ns).or (assumed req v [] ns)

theorem isMet_setStart (t : Times) (r v time req vehicle : ℤ) :
    (t.setStart r v time).isMet req vehicle = t.isMet req vehicle := rfl

theorem known_request {task req : ℤ} {ns : List Note} {t t' : Times} {r v k start : ℤ} (h : Known task req ns t)
    (hs : t'.summary = t.summary)
    (hm : ∀ x, t'.isMet req x = (ns ++ [Note.implRequest r v k start]).any (·.meets task req x))
    (ht : ∀ x, t'.of req x = if ¬ns.any (·.meets task req v) ∧ r = req ∧ v = x then some start else t.of req x) :
    Known task req (ns ++ [.implRequest r v k start])
      (match t'.summary.get r with
        | none => t'
        | some list => t'.fill r start list) := by
  have hsum : lastSummary req (ns ++ [.implRequest r v k start]) = lastSummary req ns := by rw [lastSummary_snoc]
  constructor
  · rw [hsum, ← h.summary, ← hs]
    split
    · rfl
    · rw [(fill_other _ _ _ _).1]
  · intro x
    rw [← hm x]
    split
    · rfl
    · unfold Times.isMet
      rw [(fill_other _ _ _ _).2]
  · intro x
    have hfill : (match t'.summary.get r with
        | none => t'
        | some list => t'.fill r start list).of req x = (t'.of req x).or
          (if r = req ∧ ∃ l, lastSummary req ns = some l ∧ ∃ a ∈ l, a.vehicle = x then some start else none) := by
      by_cases hr : r = req
      · subst hr
        rw [hs, h.summary]
        cases hl : lastSummary r ns with
        | none => simp
        | some l => simp [of_fill]
      · rw [if_neg (fun c => hr c.1)]
        cases t'.summary.get r with
        | none => simp
        | some l => simp [of_fill, hr]
    rw [hfill, ht, h.times, ownTime_snoc, assumed_snoc, List.nil_append]
    by_cases hrx : r = req ∧ v = x
    · obtain ⟨rfl, rfl⟩ := hrx
      by_cases hmet : ns.any (·.meets task r v) = true
      · simp [hmet, Option.or_assoc]
      · simp [hmet, Note.own]
    · rw [if_neg (fun c => hrx c.2)]
      simp [Note.own, hrx, Option.or_assoc]

theorem known_step {task req : ℤ} {ns : List Note} {n : Note} {t : Times} (h : Known task req ns t) (hn : n.ends req = false) :
    Known task req (ns ++ [n]) (t.step task n) := by
  cases n with
  | summary r l =>
    refine ⟨?_, ?_, ?_⟩
    · rw [lastSummary_snoc]
      show (t.summary.put r l).get req = _
      rw [Map.get_put]
      by_cases hr : r = req
      · simp [hr]
      · simp [hr, Ne.symm hr, h.summary]
    · intro v
      rw [List.any_append, ← h.met v]
      simp [Note.meets, Times.step, Times.isMet]
    · intro v
      rw [ownTime_snoc, assumed_snoc, show (t.step task (.summary r l)).of req v = t.of req v from rfl, h.times]
      simp [Note.own]
  | matrix r l =>
    refine ⟨?_, ?_, ?_⟩
    · rw [lastSummary_snoc]
      exact h.summary
    · intro v
      rw [List.any_append, ← h.met v]
      simp [Note.meets, Times.step, Times.isMet]
    · intro v
      rw [ownTime_snoc, assumed_snoc, show (t.step task (.matrix r l)).of req v = t.of req v from rfl, h.times]
      simp [Note.own]
  | done r =>
    have hr : ¬r = req := by simpa [Note.ends] using hn
    refine ⟨?_, ?_, ?_⟩
    · rw [lastSummary_snoc]
      show (t.summary.del r).get req = _
      rw [Map.get_del, if_neg (Ne.symm hr), h.summary]
    · intro v
      rw [List.any_append, ← h.met v]
      simp [Note.meets, Times.step, Times.isMet]
    · intro v
      have : (t.step task (.done r)).of req v = t.of req v := by
        show ((t.start.del r).get req).bind _ = _
        rw [Map.get_del, if_neg (Ne.symm hr)]
        rfl
      rw [ownTime_snoc, assumed_snoc, this, h.times]
      simp [Note.own]
  | implResponse r v k final =>
    refine ⟨?_, ?_, ?_⟩
    · rw [lastSummary_snoc, ← h.summary]
      unfold Times.step
      dsimp only
      split <;> rfl
    · intro x
      rw [List.any_append, ← h.met x]
      unfold Times.step
      dsimp only
      split <;> simp [Note.meets, isMet_setStart]
    · intro x
      have : (t.step task (.implResponse r v k final)).of req x =
          if (k ≠ task ∧ t.isMet r v = false) ∧ r = req ∧ v = x then some final else t.of req x := by
        unfold Times.step
        dsimp only
        by_cases hc : k ≠ task ∧ t.isMet r v = false
        · rw [if_pos hc, of_setStart]
          simp [hc]
        · rw [if_neg hc, if_neg (fun c => hc c.1)]
      rw [ownTime_snoc, assumed_snoc, this, h.times]
      by_cases hrx : r = req ∧ v = x
      · obtain ⟨rfl, rfl⟩ := hrx
        rw [h.met v]
        by_cases hmet : ns.any (·.meets task r v) = true
        · simp [hmet]
        · by_cases hk : k = task
          · simp [hk, Note.own, hmet]
          · simp [hk, Note.own, hmet]
      · rw [if_neg (fun c => hrx c.2)]
        have : ¬(r = req ∧ v = x ∧ k ≠ task) := fun c => hrx ⟨c.1, c.2.1⟩
        simp [Note.own, this]
  | implRequest r v k start =>
    unfold Times.step
    dsimp only
    by_cases hmet : t.isMet r v = true
    · rw [if_pos hmet]
      apply known_request h rfl
      · intro x
        rw [List.any_append, h.met x]
        by_cases hrx : r = req ∧ v = x
        · obtain ⟨rfl, rfl⟩ := hrx
          rw [h.met v] at hmet
          simp [hmet]
        · have : (Note.implRequest r v k start).meets task req x = false := by
            by_cases hr : r = req
            · have hv : v ≠ x := fun hv => hrx ⟨hr, hv⟩
              simp [Note.meets, hv]
            · simp [Note.meets, hr]
          simp [this]
      · intro x
        rw [if_neg]
        rintro ⟨c1, rfl, rfl⟩
        rw [h.met v] at hmet
        exact c1 hmet
    · rw [if_neg hmet]
      apply known_request h
      · split <;> rfl
      · intro x
        rw [List.any_append, ← h.met x]
        by_cases hk : k = task
        · rw [if_pos hk]
          unfold Times.isMet Times.setStart
          dsimp only
          rw [Map.get_put]
          by_cases hr : req = r
          · subst hr
            by_cases hv : x = v
            · subst hv; simp [Note.meets, hk]
            · simp [Note.meets, hk, hv, Ne.symm hv]
          · simp [Note.meets, hr, Ne.symm hr]
        · rw [if_neg hk]
          simp [Note.meets, hk, isMet_setStart]
      · intro x
        have e : ∀ u : Times, (if k = task then
            { u with met := u.met.put r (v :: (u.met.get r).getD []) } else u).of req x = u.of req x := by
          intro u
          split <;> rfl
        rw [e, of_setStart]
        by_cases hrx : r = req ∧ v = x
        · obtain ⟨rfl, rfl⟩ := hrx
          rw [h.met v] at hmet
          simp [hmet]
        · rw [if_neg hrx, if_neg (fun c => hrx c.2)]

theorem known_after {task req : ℤ} {ns : List Note} (h : ∀ n ∈ ns, n.ends req = false) :
    Known task req ns (Times.after task ns) := by
  induction ns using List.reverseRecOn with
  | nil => exact ⟨rfl, fun v => rfl, fun v => rfl⟩
  | append_singleton ns n ih =>
    unfold Times.after at ih ⊢
    rw [List.foldl_append, List.foldl_cons, List.foldl_nil]
    exact known_step (ih fun m hm => h m (by simp [hm])) (h n (by simp))

/-- **C135.**  For every history of messages that did not end the request, and every vehicle: the time from which the vehicle
is taken to be free is the last one its requests and answers gave, up to its first request to meet; if there was none, the
start of the first request that came, for any vehicle, once the assignment named this one. -/
theorem C135_start {task req : ℤ} {ns : List Note} (h : ∀ n ∈ ns, n.ends req = false) (v : ℤ) :
    (Times.after task ns).of req v = (ownTime task req v ns).or (assumed req v [] ns) :=
  (known_after h).times v

theorem ownTime_met {task req v : ℤ} : ∀ {ns : List Note}, ns.any (·.meets task req v) = true →
    ∃ t, ownTime task req v ns = some t := by
  intro ns
  induction ns using List.reverseRecOn with
  | nil => intro h; cases h
  | append_singleton ns n ih =>
    intro h
    rw [ownTime_snoc]
    by_cases hm : ns.any (·.meets task req v) = true
    · rw [if_pos hm]; exact ih hm
    · rw [if_neg hm]
      have : n.meets task req v = true := by simpa [hm] using h
      cases n with
      | implRequest r x k start =>
        have : (r = req ∧ x = v) ∧ k = task := by simpa [Note.meets] using this
        exact ⟨start, by simp [Note.own, this.1]⟩
      | _ => cases this

/-- **C135.**  Once a vehicle was asked to meet, its time stays as long as the request lasts. -/
theorem C135_start_fixed {task req v : ℤ} {ns more : List Note} (h : ∀ n ∈ ns ++ more, n.ends req = false)
    (hm : ns.any (·.meets task req v) = true) :
    (Times.after task (ns ++ more)).of req v = (Times.after task ns).of req v := by
  rw [C135_start h, C135_start (fun n hn => h n (by simp [hn]))]
  have key : ownTime task req v (ns ++ more) = ownTime task req v ns := by
    clear h
    induction more using List.reverseRecOn with
    | nil => simp
    | append_singleton more n ih =>
      rw [← List.append_assoc, ownTime_snoc, if_pos (by rw [List.any_append, hm]; rfl), ih]
  obtain ⟨t, ht⟩ := ownTime_met hm
  rw [key, ht, Option.some_or, Option.some_or]

/-- A vehicle with a task before: free when it ends; one without: free from the first request. -/
example : (Times.after 7 [.summary 1 [⟨3, 1, 10⟩, ⟨7, 1, 10⟩, ⟨7, 2, 20⟩], .implRequest 1 10 3 1000, .implResponse 1 10 3 61000,
    .implRequest 1 10 7 61000]).of 1 10 = some 61000 ∧
  (Times.after 7 [.summary 1 [⟨3, 1, 10⟩, ⟨7, 1, 10⟩, ⟨7, 2, 20⟩], .implRequest 1 10 3 1000, .implResponse 1 10 3 61000,
    .implRequest 1 10 7 61000]).of 1 20 = some 1000 := by
  constructor <;> decide

end Verif.Rendezvous
