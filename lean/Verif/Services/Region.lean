import Verif.Trace

/-!
# The service that keeps the operating region

`src/cpp/Services/OperatingRegionStateService.cpp` 44-173.  A zone is its id and whether its start and its end are both -1,
which stands for its removal; the padding is added only in the copy that is sent, `Out.padded`.
-/

namespace Verif.Region

open Verif

/-- OperatingRegionStateService.cpp 65, 100, 136, 141: the messages received. -/
inductive In where
  | keepIn (id : Int) (removal : Bool)
  | keepOut (id : Int) (removal : Bool)
  | water (id : Int)
  | remove (ids : List Int)
deriving DecidableEq, Repr

/-- OperatingRegionStateService.cpp 60-173: what the service sends. -/
inductive Out where
  | region (keepIn keepOut : List Int)
  /-- the zone with the additional padding -/
  | padded (id : Int)
deriving DecidableEq, Repr

/-- OperatingRegionStateService.h 103-104: the members of the service. -/
structure St where
  /-- `m_additionalPadding > 1e-4` -/
  padding : Bool := false
  keepIn : List Int := []
  keepOut : List Int := []
deriving DecidableEq, Repr

/-- `remove_if` and `erase`, OperatingRegionStateService.cpp 91-95. -/
def without (l : List Int) (z : Int) : List Int := l.filter (· != z)

/-- A zone for one of the two lists, OperatingRegionStateService.cpp 65-99 and 100-135: the list, what is sent, and whether the region is sent. -/
def zone (padding : Bool) (l : List Int) (z : Int) (removal : Bool) : List Int × List Out × Bool :=
  let add := ! l.contains z
  let l' := if add && ! removal then l ++ [z] else l
  let l'' := if removal then without l' z else l'
  (l'', if add && ! removal && padding then [.padded z] else [], add || removal)

/-- `processReceivedLmcpMessage`, OperatingRegionStateService.cpp 60-173. -/
def step (s : St) : In → St × List Out
  | .keepIn z r =>
    let x := zone s.padding s.keepIn z r
    ({ s with keepIn := x.1 }, x.2.1 ++ if x.2.2 then [.region x.1 s.keepOut] else [])
  | .keepOut z r =>
    let x := zone s.padding s.keepOut z r
    ({ s with keepOut := x.1 }, x.2.1 ++ if x.2.2 then [.region s.keepIn x.1] else [])
  | .water _ => (s, [])
  | .remove zs =>
    let ki := zs.foldl without s.keepIn
    let ko := zs.foldl without s.keepOut
    ({ s with keepIn := ki, keepOut := ko }, [.region ki ko])

/-! ### What is said of it -/

/-- Not in the code: the state after a history. -/
def after (p : Bool) (h : List In) : St := (runM step { padding := p } h).1

/-- Not in the code: what is sent in a history. -/
def sent (p : Bool) (h : List In) : List Out := (runM step { padding := p } h).2.flatten

/-- Specification: whether the message says that the keep-in zone is there, or that it is
not. -/
def In.aboutIn (z : Int) : In → Option Bool
  | .keepIn y r => if y = z then some (! r) else none
  | .remove zs => if z ∈ zs then some false else none
  | _ => none

/-- Specification: whether the message says that the keep-out zone is there, or that it is
not. -/
def In.aboutOut (z : Int) : In → Option Bool
  | .keepOut y r => if y = z then some (! r) else none
  | .remove zs => if z ∈ zs then some false else none
  | _ => none

/-- Specification: the latest message about the zone says that it is there. -/
def ActiveIn (h : List In) (z : Int) : Prop := (h.reverse.findSome? (In.aboutIn z)) = some true

/-- Specification: the latest message about the keep-out zone says that it is there. -/
def ActiveOut (h : List In) (z : Int) : Prop := (h.reverse.findSome? (In.aboutOut z)) = some true

/-- Specification: the last region sent. -/
def lastRegion (l : List Out) : Option (List Int × List Int) :=
  l.reverse.findSome? fun o => match o with | .region a b => some (a, b) | .padded _ => none

theorem mem_without (l : List Int) (z x : Int) : x ∈ without l z ↔ x ∈ l ∧ x ≠ z := by
  simp [without]

theorem mem_foldl_without (zs l : List Int) (x : Int) : x ∈ zs.foldl without l ↔ x ∈ l ∧ x ∉ zs := by
  induction zs generalizing l with
  | nil => simp
  | cons z zs ih => rw [List.foldl_cons, ih, mem_without]; simp; grind

theorem nodup_foldl_without (zs : List Int) {l : List Int} (h : l.Nodup) : (zs.foldl without l).Nodup := by
  induction zs generalizing l with
  | nil => exact h
  | cons z zs ih => exact ih (h.filter _)

theorem mem_zone (p : Bool) (l : List Int) (z : Int) (r : Bool) (x : Int) :
    x ∈ (zone p l z r).1 ↔ if x = z then r = false else x ∈ l := by
  rw [zone]
  cases r
  · simp only [Bool.not_false, Bool.and_true, Bool.false_eq_true, if_false]
    by_cases hz : z ∈ l
    · have : (! l.contains z) = false := by simp [hz]
      simp only [this, Bool.false_eq_true, if_false]
      split
      · rename_i h; subst h; simp [hz]
      · rfl
    · have : (! l.contains z) = true := by simp [hz]
      simp only [this, if_true]
      rw [List.mem_append, List.mem_singleton]
      split
      · rename_i h; simp [h]
      · rename_i h; simp [h]
  · simp only [Bool.not_true, Bool.and_false, Bool.false_eq_true, if_false, if_true]
    rw [mem_without]
    split
    · rename_i h; simp [h]
    · rename_i h; simp [h]

theorem nodup_zone (p : Bool) {l : List Int} (h : l.Nodup) (z : Int) (r : Bool) : (zone p l z r).1.Nodup := by
  rw [zone]
  dsimp only
  have h1 : (if (! l.contains z && ! r) = true then l ++ [z] else l).Nodup := by
    split
    · rename_i hc
      rw [List.nodup_append]
      refine ⟨h, by simp, ?_⟩
      intro a ha b hb
      rw [List.mem_singleton.mp hb]
      rintro rfl
      simp [ha] at hc
    · exact h
  split
  · exact h1.filter _
  · exact h1

/-- For the proofs: the lists are as the messages say. -/
structure Tracks (h : List In) (s : St) : Prop where
  nodupIn : s.keepIn.Nodup
  nodupOut : s.keepOut.Nodup
  memIn : ∀ z, z ∈ s.keepIn ↔ ActiveIn h z
  memOut : ∀ z, z ∈ s.keepOut ↔ ActiveOut h z

theorem activeIn_snoc (h : List In) (i : In) (z : Int) :
    ActiveIn (h ++ [i]) z ↔ match i.aboutIn z with | some b => b = true | none => ActiveIn h z := by
  rw [ActiveIn, List.reverse_append, List.reverse_cons, List.reverse_nil, List.nil_append, List.singleton_append,
    List.findSome?_cons]
  cases i.aboutIn z with
  | none => rfl
  | some b => simp

theorem activeOut_snoc (h : List In) (i : In) (z : Int) :
    ActiveOut (h ++ [i]) z ↔ match i.aboutOut z with | some b => b = true | none => ActiveOut h z := by
  rw [ActiveOut, List.reverse_append, List.reverse_cons, List.reverse_nil, List.nil_append, List.singleton_append,
    List.findSome?_cons]
  cases i.aboutOut z with
  | none => rfl
  | some b => simp

theorem tracks (p : Bool) (h : List In) : Tracks h (after p h) := by
  induction h using snocRec with
  | nil => exact ⟨List.nodup_nil, List.nodup_nil, fun z => by simp [after, runM, ActiveIn],
      fun z => by simp [after, runM, ActiveOut]⟩
  | append_singleton h i ih =>
    have e : after p (h ++ [i]) = (step (after p h) i).1 := by rw [after, runM_snoc]; rfl
    rw [e]
    cases i with
    | keepIn y r =>
      refine ⟨nodup_zone (after p h).padding ih.nodupIn y r, ih.nodupOut, ?_, ?_⟩
      · intro z
        rw [activeIn_snoc]
        show z ∈ (zone (after p h).padding _ y r).1 ↔ _
        rw [mem_zone, In.aboutIn]
        by_cases hz : z = y
        · subst hz; simp
        · rw [if_neg hz, if_neg (fun h => hz h.symm)]; exact ih.memIn z
      · intro z; rw [activeOut_snoc]; exact ih.memOut z
    | keepOut y r =>
      refine ⟨ih.nodupIn, nodup_zone (after p h).padding ih.nodupOut y r, ?_, ?_⟩
      · intro z; rw [activeIn_snoc]; exact ih.memIn z
      · intro z
        rw [activeOut_snoc]
        show z ∈ (zone (after p h).padding _ y r).1 ↔ _
        rw [mem_zone, In.aboutOut]
        by_cases hz : z = y
        · subst hz; simp
        · rw [if_neg hz, if_neg (fun h => hz h.symm)]; exact ih.memOut z
    | water y => exact ⟨ih.nodupIn, ih.nodupOut, fun z => by rw [activeIn_snoc]; exact ih.memIn z,
        fun z => by rw [activeOut_snoc]; exact ih.memOut z⟩
    | remove zs =>
      refine ⟨nodup_foldl_without zs ih.nodupIn, nodup_foldl_without zs ih.nodupOut, ?_, ?_⟩
      · intro z
        rw [activeIn_snoc, In.aboutIn]
        show z ∈ zs.foldl without _ ↔ _
        rw [mem_foldl_without]
        by_cases hz : z ∈ zs
        · simp [hz]
        · rw [if_neg hz]; simp [hz, ih.memIn z]
      · intro z
        rw [activeOut_snoc, In.aboutOut]
        show z ∈ zs.foldl without _ ↔ _
        rw [mem_foldl_without]
        by_cases hz : z ∈ zs
        · simp [hz]
        · rw [if_neg hz]; simp [hz, ih.memOut z]

theorem lastRegion_append (l m : List Out) : lastRegion (l ++ m) = (lastRegion m).or (lastRegion l) := by
  rw [lastRegion, List.reverse_append, List.findSome?_append]; rfl

theorem zone_quiet {p : Bool} {l : List Int} {z : Int} {r : Bool} (h : (zone p l z r).2.2 = false) :
    (zone p l z r).1 = l ∧ (zone p l z r).2.1 = [] := by
  rw [zone] at h ⊢
  dsimp only at h ⊢
  cases r
  · simp at h; simp [h]
  · simp at h

/-- Nothing has been sent and there are no zones, or the last region sent is the current one. -/
theorem lastRegion_sent (p : Bool) (h : List In) :
    lastRegion (sent p h) = some ((after p h).keepIn, (after p h).keepOut) ∨
    (lastRegion (sent p h) = none ∧ (after p h).keepIn = [] ∧ (after p h).keepOut = []) := by
  induction h using snocRec with
  | nil => exact Or.inr ⟨rfl, rfl, rfl⟩
  | append_singleton h i ih =>
    have e : after p (h ++ [i]) = (step (after p h) i).1 := by rw [after, runM_snoc]; rfl
    have e2 : sent p (h ++ [i]) = sent p h ++ (step (after p h) i).2 := by
      rw [sent, runM_snoc]
      show (_ ++ [(step (after p h) i).2]).flatten = _
      rw [List.flatten_append]; simp [sent]
    rw [e, e2, lastRegion_append]
    cases i with
    | keepIn y r =>
      rw [step]
      dsimp only
      cases hb : (zone (after p h).padding (after p h).keepIn y r).2.2 with
      | true =>
        left
        rw [if_pos rfl, lastRegion_append]; rfl
      | false =>
        obtain ⟨h1, h2⟩ := zone_quiet hb
        rw [h1, h2]
        simpa [lastRegion] using ih
    | keepOut y r =>
      rw [step]
      dsimp only
      cases hb : (zone (after p h).padding (after p h).keepOut y r).2.2 with
      | true =>
        left
        rw [if_pos rfl, lastRegion_append]; rfl
      | false =>
        obtain ⟨h1, h2⟩ := zone_quiet hb
        rw [h1, h2]
        simpa [lastRegion] using ih
    | water y => simpa [step, lastRegion] using ih
    | remove zs => left; rfl

/-! ### C46 -/

/-- The last region that was sent lists each active zone once, and no other. -/
theorem C46_region (p : Bool) (h : List In) {ki ko : List Int} (hr : lastRegion (sent p h) = some (ki, ko)) :
    ki.Nodup ∧ ko.Nodup ∧ (∀ z, z ∈ ki ↔ ActiveIn h z) ∧ ∀ z, z ∈ ko ↔ ActiveOut h z := by
  have ht := tracks p h
  rcases lastRegion_sent p h with h1 | ⟨h1, _⟩
  · rw [hr] at h1
    injection h1 with h1
    injection h1 with h1 h2
    rw [h1, h2]
    exact ⟨ht.nodupIn, ht.nodupOut, ht.memIn, ht.memOut⟩
  · rw [hr] at h1; cases h1

/-- As long as no region was sent no zone is active. -/
theorem C46_none (p : Bool) (h : List In) (hr : lastRegion (sent p h) = none) :
    (∀ z, ¬ ActiveIn h z) ∧ ∀ z, ¬ ActiveOut h z := by
  have ht := tracks p h
  rcases lastRegion_sent p h with h1 | ⟨_, h1, h2⟩
  · rw [hr] at h1; cases h1
  · constructor
    · intro z hz
      have := (ht.memIn z).mpr hz
      rw [h1] at this; cases this
    · intro z hz
      have := (ht.memOut z).mpr hz
      rw [h2] at this; cases this

/-- The zones are kept in the order in which they became active: a message about one zone leaves the others in their order. -/
theorem C46_order (s : St) (z : Int) (r : Bool) :
    without (step s (.keepIn z r)).1.keepIn z = without s.keepIn z ∧ (step s (.keepIn z r)).1.keepOut = s.keepOut ∧
    without (step s (.keepOut z r)).1.keepOut z = without s.keepOut z ∧ (step s (.keepOut z r)).1.keepIn = s.keepIn := by
  have key : ∀ l : List Int, without (zone s.padding l z r).1 z = without l z := by
    intro l
    rw [zone]
    dsimp only
    have h1 : without (if (! l.contains z && ! r) = true then l ++ [z] else l) z = without l z := by
      split
      · rw [without, List.filter_append]; simp [without]
      · rfl
    split
    · rw [without, without, List.filter_filter]
      simp only [Bool.and_self]
      exact h1
    · exact h1
  exact ⟨key _, rfl, key _, rfl⟩

/-- With additional padding a zone is sent with it exactly when it becomes active. -/
theorem C46_padding (p : Bool) (h : List In) (z : Int) (i : In) :
    .padded z ∈ (step (after p h) i).2 ↔
      p = true ∧ ((i = .keepIn z false ∧ ¬ ActiveIn h z) ∨ (i = .keepOut z false ∧ ¬ ActiveOut h z)) := by
  have hp : (after p h).padding = p := by
    induction h using snocRec with
    | nil => rfl
    | append_singleton h i ih =>
      have e : after p (h ++ [i]) = (step (after p h) i).1 := by rw [after, runM_snoc]; rfl
      rw [e]
      cases i <;> exact ih
  have ht := tracks p h
  cases i with
  | water y => simp [step]
  | remove zs => simp [step]
  | keepIn y r =>
    rw [step, zone, hp]
    have := ht.memIn y
    cases r <;> cases p <;> simp <;> grind
  | keepOut y r =>
    rw [step, zone, hp]
    have := ht.memOut y
    cases r <;> cases p <;> simp <;> grind

/-- Zones are created, one is created again, one is removed by its own message and another by a list. -/
example : sent true [.keepIn 1 false, .keepOut 2 false, .keepIn 1 false, .keepIn 3 false, .keepOut 2 true, .remove [1, 9],
      .keepOut 1 false] =
    [.padded 1, .region [1] [], .padded 2, .region [1] [2], .padded 3, .region [1, 3] [2], .region [1, 3] [],
     .region [3] [], .padded 1, .region [3] [1]] := by decide

example : ActiveIn [.keepIn 1 false, .keepIn 3 false, .remove [1]] 3 ∧ ¬ ActiveIn [.keepIn 1 false, .keepIn 3 false, .remove [1]] 1 := by
  unfold ActiveIn; decide

end Verif.Region
