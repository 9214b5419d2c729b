import Verif.Options.NextPerm
import Verif.Options.CordonProps

/-!
C101: rendezvous.
-/

namespace Verif.Options

open Verif Verif.Algebra

/-! ### Options -/

/-- The states that a vehicle can take. -/
def statesOf (states : List Meet) (v : Int) : List Meet := states.filter fun s => s.entity == 0 || s.entity == v

/-- The number of the option of a vehicle for its `j`-th state. -/
def meetNum (vs : List Int) (k : Nat) (id v : Int) (j : Nat) : Int := id + vs.idxOf v * k + j

/-- The options of all vehicles. -/
def meetAll (states : List Meet) : Int → List Int → List Opt
  | _, [] => []
  | id, v :: vs => meetOpts states v id ++ meetAll states (id + (meetOpts states v id).length) vs

/-- The entries of the table, when each vehicle has `k` options. -/
def meetEntries (k : Nat) : Int → List Int → List (Int × List Int)
  | _, [] => []
  | id, v :: vs => (v, (List.range k).map fun (j : Nat) => id + (j : Int)) :: meetEntries k (id + k) vs

theorem pushOption_fresh {v id : Int} : ∀ {m : List (Int × List Int)}, v ∉ m.map (·.1) → pushOption m v id = m ++ [(v, [id])]
  | [], _ => rfl
  | (u, ids) :: m, h => by
    simp only [List.map_cons, List.mem_cons, not_or] at h
    rw [pushOption, if_neg (Ne.symm h.1), pushOption_fresh h.2]; rfl

theorem pushOption_last {v id : Int} {ids : List Int} : ∀ {m : List (Int × List Int)}, v ∉ m.map (·.1) →
    pushOption (m ++ [(v, ids)]) v id = m ++ [(v, ids ++ [id])]
  | [], _ => by simp [pushOption]
  | (u, is) :: m, h => by
    simp only [List.map_cons, List.mem_cons, not_or] at h
    rw [List.cons_append, pushOption, if_neg (Ne.symm h.1), pushOption_last h.2]; rfl

theorem foldl_push {v : Int} {m : List (Int × List Int)} (h : v ∉ m.map (·.1)) : ∀ {new : List Int} {ids : List Int},
    new.foldl (fun m i => pushOption m v i) (m ++ [(v, ids)]) = m ++ [(v, ids ++ new)]
  | [], ids => by simp
  | i :: new, ids => by rw [List.foldl_cons, pushOption_last h, foldl_push h]; simp

theorem foldl_push_new {v : Int} {m : List (Int × List Int)} (h : v ∉ m.map (·.1)) {new : List Int} (hn : new ≠ []) :
    new.foldl (fun m i => pushOption m v i) m = m ++ [(v, new)] := by
  cases new with
  | nil => exact absurd rfl hn
  | cons i new => rw [List.foldl_cons, pushOption_fresh h, foldl_push h]; simp

theorem meetOpts_length (states : List Meet) (v id : Int) : (meetOpts states v id).length = (statesOf states v).length := by
  have := congrArg List.length (numbered_ids (mk := fun i (s : Meet) => ({ id := i, eligible := [v], place := s.place } : Opt))
    (fun _ _ => rfl) id (statesOf states v))
  simpa [meetOpts, statesOf] using this

theorem meetLoop_eq {states : List Meet} {k : Nat} (hk : 0 < k) : ∀ {vs : List Int} {id : Int} {os : List Opt}
    {m : List (Int × List Int)}, vs.Nodup → (∀ v ∈ vs, v ∉ m.map (·.1)) → (∀ v ∈ vs, (statesOf states v).length = k) →
    meetLoop states id vs (os, m) = (os ++ meetAll states id vs, m ++ meetEntries k id vs)
  | [], id, os, m, _, _, _ => by simp [meetLoop, meetAll, meetEntries]
  | v :: vs, id, os, m, hn, hf, hs => by
    obtain ⟨h₁, h₂⟩ := List.nodup_cons.mp hn
    have hlen := meetOpts_length states v id
    rw [hs v (by simp)] at hlen
    have hids : (meetOpts states v id).map (·.id) = (List.range k).map fun (j : Nat) => id + (j : Int) := by
      rw [← hs v (by simp)]
      exact numbered_ids (fun _ _ => rfl) _ _
    rw [meetLoop]
    rw [foldl_push_new (hf v (by simp)) (by
      intro e
      have := congrArg List.length e
      simp [hlen] at this
      omega)]
    rw [meetLoop_eq hk h₂ ?_ fun u hu => hs u (by simp [hu])]
    · rw [meetAll, meetEntries, hlen, hids]
      simp
    · intro u hu
      simp only [List.map_append, List.map_cons, List.map_nil, List.mem_append, List.mem_singleton, not_or]
      exact ⟨hf u (by simp [hu]), by rintro rfl; exact h₁ hu⟩

theorem meetEntries_eq (k : Nat) : ∀ (vs : List Int) (id : Int), vs.Nodup →
    meetEntries k id vs = vs.map fun v => (v, (List.range k).map fun j => meetNum vs k id v j)
  | [], _, _ => rfl
  | v :: vs, id, hn => by
    obtain ⟨h₁, h₂⟩ := List.nodup_cons.mp hn
    rw [meetEntries, meetEntries_eq k vs _ h₂, List.map_cons]
    congr 1
    · simp [meetNum]
    · apply List.map_congr_left
      intro u hu
      have hne : v ≠ u := by rintro rfl; exact h₁ hu
      refine Prod.ext rfl (List.map_congr_left fun j _ => ?_)
      simp only [meetNum, List.idxOf_cons, beq_false_of_ne hne, cond_false]
      rw [Int.natCast_add, Int.add_mul]
      omega

theorem meetAll_ids {states : List Meet} : ∀ {vs : List Int} {id : Int},
    ((meetAll states id vs).map (·.id)).Nodup ∧ ∀ o ∈ meetAll states id vs, id ≤ o.id
  | [], id => by simp [meetAll]
  | v :: vs, id => by
    obtain ⟨h₁, h₂⟩ := meetAll_ids (states := states) (vs := vs) (id := id + (meetOpts states v id).length)
    have hb : ∀ o ∈ meetOpts states v id, id ≤ o.id ∧ o.id < id + (meetOpts states v id).length := by
      intro o ho
      rw [meetOpts_length]
      obtain ⟨s, -, i, i₁, i₂, rfl⟩ := mem_numbered ho
      exact ⟨i₁, i₂⟩
    rw [meetAll]
    refine ⟨?_, ?_⟩
    · rw [List.map_append]
      refine List.nodup_append.mpr ⟨numbered_nodup (fun _ _ => rfl) _ _, h₁, ?_⟩
      intro a ha b hb' e
      obtain ⟨o, ho, rfl⟩ := List.mem_map.mp ha
      obtain ⟨o', ho', rfl⟩ := List.mem_map.mp hb'
      have := hb o ho
      have := h₂ o' ho'
      omega
    · intro o ho
      rcases List.mem_append.mp ho with ho | ho
      · exact (hb o ho).1
      · have := h₂ o ho; omega

theorem numbered_getElem {α : Type} {mk : Int → α → Opt} : ∀ {as : List α} {id : Int} {j : Nat} {a : α}, as[j]? = some a →
    mk (id + j) a ∈ numbered id mk as
  | [], _, _, _, h => by simp at h
  | b :: as, id, j, a, h => by
    cases j with
    | zero =>
      simp only [List.getElem?_cons_zero, Option.some.injEq] at h
      subst h; simp [numbered]
    | succ j =>
      have := numbered_getElem (mk := mk) (id := id + 1) (j := j) (a := a) (as := as) (by simpa using h)
      rw [numbered, show id + ((j + 1 : Nat) : Int) = id + 1 + (j : Int) from by omega]
      exact List.mem_cons_of_mem _ this

theorem meetAll_mem {states : List Meet} {k : Nat} : ∀ {vs : List Int} {id v : Int} {j : Nat} {s : Meet},
    (∀ v ∈ vs, (statesOf states v).length = k) → v ∈ vs → (statesOf states v)[j]? = some s →
    ({ id := meetNum vs k id v j, eligible := [v], place := s.place } : Opt) ∈ meetAll states id vs
  | [], _, _, _, _, _, h, _ => by simp at h
  | u :: vs, id, v, j, s, hk, hv, hj => by
    rw [meetAll]
    by_cases e : v = u
    · subst e
      refine List.mem_append.mpr (.inl ?_)
      have := numbered_getElem (mk := fun i (s : Meet) => ({ id := i, eligible := [v], place := s.place } : Opt)) (id := id) hj
      simpa [meetNum, meetOpts, statesOf] using this
    · have := meetAll_mem (states := states) (vs := vs) (id := id + (meetOpts states u id).length) (fun v hv => hk v (by simp [hv]))
        (by simpa [e] using hv) hj
      refine List.mem_append.mpr (.inr ?_)
      have e' : meetNum (u :: vs) k id v j = meetNum vs k (id + (meetOpts states u id).length) v j := by
        rw [meetOpts_length, hk u (by simp)]
        simp only [meetNum, List.idxOf_cons, beq_false_of_ne (Ne.symm e), cond_false]
        rw [Int.natCast_add, Int.add_mul]
        omega
      rw [e']; exact this

theorem mem_meetAll {states : List Meet} {o : Opt} : ∀ {vs : List Int} {id : Int}, o ∈ meetAll states id vs →
    ∃ v ∈ vs, ∃ s ∈ states, (s.entity = 0 ∨ s.entity = v) ∧ o.eligible = [v] ∧ o.place = s.place
  | [], _, h => by simp [meetAll] at h
  | v :: vs, id, h => by
    rw [meetAll] at h
    rcases List.mem_append.mp h with h | h
    · obtain ⟨s, hs, i, -, -, rfl⟩ := mem_numbered h
      obtain ⟨h₁, h₂⟩ := List.mem_filter.mp hs
      exact ⟨v, by simp, s, h₁, by simpa using h₂, rfl, rfl⟩
    · obtain ⟨u, hu, r⟩ := mem_meetAll h
      exact ⟨u, by simp [hu], r⟩

/-! ### Text -/

theorem alts_body : ∀ (blocks : List (List Int)),
    WrittenBody (blocks.map fun b => .op .seq (b.map .action)) (blocks.flatMap altText)
  | [] => by simpa using body_nil
  | b :: bs => by
    have h₁ := written_op .seq (body_blank (by simpa using body_refs body_nil b))
    have := body_op h₁ (body_blank (alts_body bs))
    simpa [opText, altText] using this

/-- The text of the alternatives, which ends with a blank. -/
theorem means_alts (blocks : List (List Int)) :
    Means ('+' :: '(' :: ' ' :: (blocks.flatMap altText ++ [')', ' '])) blocks.flatten (fun w => w ∈ blocks) := by
  have hw := written_op .alt (body_blank (alts_body blocks))
  refine ⟨_, _, [' '], ?_, blanks_one, hw, ⟨_, _, rfl⟩, ?_, fun w => ?_⟩
  · simp [opText]
  · intro a
    rw [objectives, objectivesL_seqs]
  · rw [word_alt]
    constructor
    · rintro ⟨c, hc, hw⟩
      obtain ⟨b, hb, rfl⟩ := List.mem_map.mp hc
      rw [word_seq_actions.mp hw]; exact hb
    · intro hw
      exact ⟨_, List.mem_map.mpr ⟨w, hw, rfl⟩, word_seq_actions.mpr rfl⟩

theorem means_seq_blank (ids : List Int) : Means ('.' :: '(' :: ' ' :: (refs ids ++ [')'])) ids (fun w => w = ids) := by
  have h := written_op .seq (body_blank (by simpa using body_refs body_nil ids))
  exact ⟨_, _, [], by simp [opText], blanks_nil, h, ⟨_, _, rfl⟩, by simp [objectives_actions], fun w => word_seq_actions⟩

/-! ### Choices -/

/-- The vehicles with a bit. -/
def chosen : List Int → List Nat → List Int
  | v :: vs, b :: mask => if b = 0 then chosen vs mask else v :: chosen vs mask
  | _, _ => []

theorem chosen_sublist : ∀ (vs : List Int) (mask : List Nat), (chosen vs mask).Sublist vs
  | [], mask => by simp [chosen]
  | v :: vs, [] => by simp [chosen]
  | v :: vs, b :: mask => by
    rw [chosen]
    split
    · exact (chosen_sublist vs mask).cons v
    · exact (chosen_sublist vs mask).cons_cons v

theorem chosen_length : ∀ {vs : List Int} {mask : List Nat}, mask.length ≤ vs.length →
    (chosen vs mask).length = (mask.filter (· ≠ 0)).length
  | [], mask, h => by
    have : mask = [] := List.length_eq_zero_iff.mp (by simpa using h)
    subst this; simp [chosen]
  | v :: vs, [], h => by simp [chosen]
  | v :: vs, b :: mask, h => by
    have := chosen_length (vs := vs) (mask := mask) (by simpa using h)
    rw [chosen]
    by_cases hb : b = 0
    · simp [hb]; simpa using this
    · simp [hb]; simpa using this

/-- Every part of the vehicles has its bitmask. -/
theorem mask_of_sublist {s vs : List Int} (h : s.Sublist vs) : ∃ mask : List Nat,
    mask.Perm (List.replicate s.length 1 ++ List.replicate (vs.length - s.length) 0) ∧ chosen vs mask = s := by
  induction h with
  | slnil => exact ⟨[], by simp, rfl⟩
  | @cons s vs v h ih =>
    obtain ⟨m, h₁, h₂⟩ := ih
    have hl := h.length_le
    refine ⟨0 :: m, ?_, by simp [chosen, h₂]⟩
    rw [List.length_cons, show vs.length + 1 - s.length = (vs.length - s.length) + 1 from by omega, List.replicate_succ]
    exact (h₁.cons 0).trans List.perm_middle.symm
  | @cons_cons s vs v h ih =>
    obtain ⟨m, h₁, h₂⟩ := ih
    refine ⟨1 :: m, ?_, by simp [chosen, h₂]⟩
    rw [List.length_cons, List.length_cons, show vs.length + 1 - (s.length + 1) = vs.length - s.length from by omega, List.replicate_succ]
    exact h₁.cons 1

/-- Different bitmasks choose different vehicles. -/
theorem chosen_inj : ∀ {vs : List Int} {m m' : List Nat}, vs.Nodup → m.length = vs.length → m'.length = vs.length →
    (∀ b ∈ m, b = 0 ∨ b = 1) → (∀ b ∈ m', b = 0 ∨ b = 1) → chosen vs m = chosen vs m' → m = m'
  | [], m, m', _, h₁, h₂, _, _, _ => by
    rw [List.length_eq_zero_iff.mp h₁, List.length_eq_zero_iff.mp h₂]
  | v :: vs, [], _, _, h, _, _, _, _ => by simp at h
  | v :: vs, _, [], _, _, h, _, _, _ => by simp at h
  | v :: vs, b :: m, b' :: m', hn, h₁, h₂, hb, hb', e => by
    obtain ⟨n₁, n₂⟩ := List.nodup_cons.mp hn
    have ih := chosen_inj (m := m) (m' := m') n₂ (by simpa using h₁) (by simpa using h₂) (fun c hc => hb c (by simp [hc]))
      (fun c hc => hb' c (by simp [hc]))
    have hnot : ∀ m, v ∉ chosen vs m := fun m h => n₁ ((chosen_sublist vs m).subset h)
    have c₁ := hb b (by simp)
    have c₂ := hb' b' (by simp)
    rcases c₁ with rfl | rfl <;> rcases c₂ with rfl | rfl <;> simp only [chosen, if_true, Nat.one_ne_zero, if_false] at e
    · rw [ih e]
    · exact absurd (e ▸ List.mem_cons_self) (hnot m)
    · exact absurd (e ▸ List.mem_cons_self) (hnot m')
    · rw [ih (by simpa using e)]

theorem pickOptions_cons (e : Int × List Int) (es : List (Int × List Int)) (b : Nat) (mask ks : List Nat) :
    pickOptions (e :: es) (b :: mask) ks = if b = 0 then pickOptions es mask ks
      else match ks with
        | [] => none
        | k :: ks =>
          match e.2[k]?, pickOptions es mask ks with
          | some o, some os => some (o :: os)
          | _, _ => none := by
  conv => lhs; rw [pickOptions.eq_def]
  rfl

theorem pickOptions_eq {k : Nat} {num : Int → Nat → Int} : ∀ {vs : List Int} {mask ks : List Nat},
    mask.length ≤ vs.length → (mask.filter (· ≠ 0)).length ≤ ks.length → (∀ j ∈ ks, j < k) →
    pickOptions (vs.map fun v => (v, (List.range k).map fun j => num v j)) mask ks =
      some (((chosen vs mask).zip ks).map fun a => num a.1 a.2)
  | [], mask, ks, h, _, _ => by simp [pickOptions, chosen]
  | v :: vs, [], ks, _, _, _ => by simp [pickOptions, chosen]
  | v :: vs, b :: mask, ks, h, hl, hk => by
    rw [List.map_cons, pickOptions_cons, chosen]
    by_cases hb : b = 0
    · rw [if_pos hb, if_pos hb]
      exact pickOptions_eq (by simpa using h) (by simpa [hb] using hl) hk
    · rw [if_neg hb, if_neg hb]
      cases ks with
      | nil => simp [hb] at hl
      | cons j ks =>
        have hj : j < k := hk j (by simp)
        have ih := pickOptions_eq (k := k) (num := num) (vs := vs) (mask := mask) (ks := ks) (by simpa using h)
          (by simpa [hb] using hl) (fun i hi => hk i (by simp [hi]))
        simp only [ih, List.getElem?_map, List.getElem?_range hj, Option.map_some]
        rfl

theorem pickAll_eq {m : List (Int × List Int)} {F : List Nat × List Nat → List Int} : ∀ {ps : List (List Nat × List Nat)},
    (∀ p ∈ ps, pickOptions m p.2 p.1 = some (F p)) → pickAll m ps = some (ps.map F)
  | [], _ => rfl
  | (k, mask) :: ps, h => by
    have h₁ := h (k, mask) (by simp)
    simp only at h₁
    rw [pickAll, h₁, pickAll_eq fun p hp => h p (by simp [hp])]
    rfl

theorem stateSize_const (k : Nat) : ∀ (n : Nat), stateSize k k (List.replicate n k) = some k
  | 0 => rfl
  | n + 1 => by rw [List.replicate_succ, stateSize, if_pos rfl, stateSize_const k n]

theorem stateSize_same (k n : Nat) (hn : 0 < n) : stateSize k 1 (List.replicate n k) = some k := by
  obtain ⟨n, rfl⟩ : ∃ m, n = m + 1 := ⟨n - 1, by omega⟩
  rw [List.replicate_succ, stateSize]
  split
  · next h => rw [h]; exact stateSize_const k n
  · rw [if_pos ⟨rfl, rfl⟩]; exact stateSize_const k n

/-- A meeting of `k` of the vehicles: which of them, in the order `vs`, and the number of the state that each takes. -/
structure Meeting (vs : List Int) (k : Nat) (as : List (Int × Nat)) : Prop where
  vehicles : (as.map (·.1)).Sublist vs
  size : as.length = k
  states : (as.map (·.2)).Perm (List.range k)

theorem firstMask_eq {n k : Nat} (h : k ≤ n) : firstMask n k = List.replicate k 1 ++ List.replicate (n - k) 0 := by
  unfold firstMask
  exact List.take_of_length_le (by simp; omega)

theorem firstMask_ascending (n k : Nat) : Ascending (fun a b => decide (b < a)) (firstMask n k) := by
  unfold firstMask
  refine List.Pairwise.sublist (List.take_sublist _ _) ?_
  refine List.pairwise_append.mpr ⟨?_, ?_, ?_⟩
  · rw [List.pairwise_replicate]; simp
  · rw [List.pairwise_replicate]; simp
  · intro a ha b hb
    rw [List.eq_of_mem_replicate ha, List.eq_of_mem_replicate hb]
    simp

/-- What holds of the alternatives in general. -/
theorem rendezvous_choice {g : Groups} {states : List Meet} {k : Nat} {order : List (Int × List Int) → List (Int × List Int)}
    (hord : ∀ m, (order m).Perm m) (hg : (vehicles g).Nodup) (hk : 0 < k) (hkn : k ≤ (vehicles g).length)
    (hn : (vehicles g).length < 256) (hs : ∀ v ∈ vehicles g, (statesOf states v).length = k)
    (hnot : ¬ (k = 1 ∧ (vehicles g).length = 1)) :
    ∃ (vs : List Int) (blocks : List (List (Int × Nat))),
      vs.Perm (vehicles g) ∧
      rendezvous g states k order = .ok
        ⟨'+' :: '(' :: ' ' :: ((blocks.map fun as => as.map fun a => meetNum (vehicles g) k firstId a.1 a.2).flatMap altText ++ [')', ' ']),
          meetAll states firstId (vehicles g)⟩ ∧
      (∀ as ∈ blocks, Meeting vs k as) ∧ blocks.Nodup ∧ blocks.length ≤ 64 ∧
      (blocks.length < 64 → ∀ as, Meeting vs k as → as ∈ blocks) := by
  have hloop : meetLoop states firstId (vehicles g) ([], []) =
      (meetAll states firstId (vehicles g), meetEntries k firstId (vehicles g)) := by
    rw [meetLoop_eq hk hg (by simp) hs]; simp
  rw [meetEntries_eq k _ _ hg] at hloop
  have hperm := hord ((vehicles g).map fun v => (v, (List.range k).map fun j => meetNum (vehicles g) k firstId v j))
  refine ⟨(order ((vehicles g).map fun v => (v, (List.range k).map fun j => meetNum (vehicles g) k firstId v j))).map (·.1), ?_⟩
  have hvs : ((order ((vehicles g).map fun v => (v, (List.range k).map fun j => meetNum (vehicles g) k firstId v j))).map (·.1)).Perm
      (vehicles g) := by
    have := hperm.map (·.1)
    rw [List.map_map] at this
    simpa [Function.comp_def] using this
  have hm : order ((vehicles g).map fun v => (v, (List.range k).map fun j => meetNum (vehicles g) k firstId v j)) =
      ((order ((vehicles g).map fun v => (v, (List.range k).map fun j => meetNum (vehicles g) k firstId v j))).map (·.1)).map
        fun v => (v, (List.range k).map fun j => meetNum (vehicles g) k firstId v j) := by
    rw [List.map_map]
    conv => lhs; rw [← List.map_id (order _)]
    apply List.map_congr_left
    intro e he
    obtain ⟨v, -, rfl⟩ := List.mem_map.mp (hperm.subset he)
    rfl
  unfold rendezvous
  rw [hloop]
  simp only
  generalize (order ((vehicles g).map fun v => (v, (List.range k).map fun j => meetNum (vehicles g) k firstId v j))).map (·.1) = vs
    at hvs hm ⊢
  rw [hm]
  have hlen : vs.length = (vehicles g).length := hvs.length_eq
  have hnd : vs.Nodup := hvs.nodup_iff.mpr hg
  have hsz : ((vs.map fun v => (v, (List.range k).map fun j => meetNum (vehicles g) k firstId v j)).map fun e => e.2.length) =
      List.replicate vs.length k := by
    rw [List.map_map, List.eq_replicate_iff]
    refine ⟨by simp, ?_⟩
    intro b hb
    obtain ⟨v, -, rfl⟩ := List.mem_map.mp hb
    simp
  rw [hsz, stateSize_same k vs.length (by omega)]
  have hcond : ¬ (k = 1 ∧ k = (vs.map fun v => (v, (List.range k).map fun j => meetNum (vehicles g) k firstId v j)).length) := by
    simp only [List.length_map]
    rintro ⟨rfl, h⟩
    exact hnot ⟨rfl, by omega⟩
  simp only
  rw [if_neg hcond]
  have hmod : (vs.map fun v => (v, (List.range k).map fun j => meetNum (vehicles g) k firstId v j)).length % 256 = vs.length := by
    rw [List.length_map, Nat.mod_eq_of_lt (by omega)]
  rw [hmod]
  obtain ⟨r₁, r₂, r₃, r₄⟩ := meetRounds_facts (mask := firstMask vs.length k) (left := 64) (korder := List.range k)
  have hmask : firstMask vs.length k = List.replicate k 1 ++ List.replicate (vs.length - k) 0 := firstMask_eq (by omega)
  have hones : ∀ p ∈ meetRounds (firstMask vs.length k) 64 (List.range k),
      p.2.length = vs.length ∧ (p.2.filter (· ≠ 0)).length = k ∧ p.1.length = k ∧ (∀ j ∈ p.1, j < k) ∧ ∀ b ∈ p.2, b = 0 ∨ b = 1 := by
    intro p hp
    obtain ⟨q₁, q₂, -⟩ := r₁ p hp
    refine ⟨?_, ?_, ?_, ?_, ?_⟩
    · rw [q₂.length_eq, hmask]; simp; omega
    · rw [(q₂.filter _).length_eq, hmask]; simp
    · rw [q₁.length_eq]; simp
    · intro j hj; simpa using q₁.subset hj
    · intro b hb
      have := q₂.subset hb
      rw [hmask] at this
      rcases List.mem_append.mp this with h | h
      · exact .inr (List.eq_of_mem_replicate h)
      · exact .inl (List.eq_of_mem_replicate h)
  rw [pickAll_eq (F := fun p => (((chosen vs p.2).zip p.1).map fun a => meetNum (vehicles g) k firstId a.1 a.2)) (by
    intro p hp
    obtain ⟨o₁, o₂, o₃, o₄, -⟩ := hones p hp
    exact pickOptions_eq (by omega) (by omega) o₄)]
  have hparts : ∀ p ∈ meetRounds (firstMask vs.length k) 64 (List.range k),
      ((chosen vs p.2).zip p.1).map (·.1) = chosen vs p.2 ∧ ((chosen vs p.2).zip p.1).map (·.2) = p.1 ∧ (chosen vs p.2).length = k := by
    intro p hp
    obtain ⟨o₁, o₂, o₃, -, -⟩ := hones p hp
    have hc := chosen_length (vs := vs) (mask := p.2) (by omega)
    exact ⟨zip_fst (by omega), zip_snd (by omega), by omega⟩
  refine ⟨(meetRounds (firstMask vs.length k) 64 (List.range k)).map fun p => (chosen vs p.2).zip p.1, hvs, ?_, ?_, ?_, ?_, ?_⟩
  · simp only [List.map_map]
    rfl
  · intro as has
    obtain ⟨p, hp, rfl⟩ := List.mem_map.mp has
    obtain ⟨h₁, h₂, h₃⟩ := hparts p hp
    obtain ⟨o₁, o₂, o₃, o₄, -⟩ := hones p hp
    exact ⟨by rw [h₁]; exact chosen_sublist _ _, by simp; omega, by rw [h₂]; exact (r₁ p hp).1⟩
  · rw [List.nodup_iff_pairwise_ne, List.pairwise_map]
    refine (List.nodup_iff_pairwise_ne.mp r₂).imp_of_mem ?_
    intro p q hp hq hne e
    apply hne
    obtain ⟨p₁, p₂, -⟩ := hparts p hp
    obtain ⟨q₁, q₂, -⟩ := hparts q hq
    obtain ⟨o₁, -, -, -, o₅⟩ := hones p hp
    obtain ⟨u₁, -, -, -, u₅⟩ := hones q hq
    refine Prod.ext (by rw [← p₂, ← q₂, e]) (chosen_inj hnd o₁ u₁ o₅ u₅ (by rw [← p₁, ← q₁, e]))
  · simpa using r₃
  · intro hlt as ⟨a₁, a₂, a₃⟩
    obtain ⟨mask, m₁, m₂⟩ := mask_of_sublist a₁
    rw [List.length_map, a₂] at m₁
    have := r₄ (by simpa using hlt) (firstMask_ascending _ _) (as.map (·.2)) mask a₃
      (ascending_first linear_lt (by
        rw [Ascending]
        exact List.pairwise_lt_range.imp fun h => by simp; omega) a₃)
      (by rw [hmask]; exact m₁)
    refine List.mem_map.mpr ⟨_, this, ?_⟩
    simp only [m₂]
    exact zip_self as

/-- **C101, rendezvous with a choice of vehicles**, when every requested vehicle has as many states as there are participants:
each allowed order is a meeting of `k` different vehicles with different states, each with the option of the vehicle for its
state; if fewer than 64 orders are allowed then every meeting is. -/
theorem C101_choice_partial {g : Groups} {states : List Meet} {k : Nat} {order : List (Int × List Int) → List (Int × List Int)}
    (hord : ∀ m, (order m).Perm m) (hg : (vehicles g).Nodup) (hk : 0 < k) (hkn : k ≤ (vehicles g).length)
    (hn : (vehicles g).length < 256) (hs : ∀ v ∈ vehicles g, (statesOf states v).length = k)
    (hnot : ¬ (k = 1 ∧ (vehicles g).length = 1)) :
    ∃ (p : Published) (vs : List Int) (num : Int → Nat → Int) (ids : List Int) (orders : List (List Int)),
      rendezvous g states k order = .ok p ∧ vs.Perm (vehicles g) ∧ (p.opts.map (·.id)).Nodup ∧
      (∀ v ∈ vehicles g, ∀ j s, (statesOf states v)[j]? = some s →
        ({ id := num v j, eligible := [v], place := s.place } : Opt) ∈ p.opts) ∧
      (∀ o ∈ p.opts, ∃ v ∈ vehicles g, ∃ s ∈ states, (s.entity = 0 ∨ s.entity = v) ∧ o.eligible = [v] ∧ o.place = s.place) ∧
      Means p.composition ids (fun w => w ∈ orders) ∧ orders.length ≤ 64 ∧
      (∀ w ∈ orders, ∃ as, Meeting vs k as ∧ w = as.map fun a => num a.1 a.2) ∧
      (orders.length < 64 → ∀ as, Meeting vs k as → (as.map fun a => num a.1 a.2) ∈ orders) := by
  obtain ⟨vs, blocks, h₁, h₂, h₃, h₄, h₅, h₆⟩ := rendezvous_choice hord hg hk hkn hn hs hnot
  refine ⟨_, vs, meetNum (vehicles g) k firstId, _, _, h₂, h₁, meetAll_ids.1, ?_, ?_, means_alts _, by simpa using h₅, ?_, ?_⟩
  · intro v hv j s hj
    exact meetAll_mem hs hv hj
  · intro o ho
    exact mem_meetAll ho
  · intro w hw
    obtain ⟨as, has, rfl⟩ := List.mem_map.mp hw
    exact ⟨as, h₃ as has, rfl⟩
  · intro hlt as has
    exact List.mem_map.mpr ⟨as, h₆ (by simpa using hlt) as has, rfl⟩

example : rendezvous [((200, 700), [400, 500]), ((150, 700), [600])] [⟨0, 7⟩, ⟨0, 8⟩] 2 id = .ok
    ⟨"+( .( p10 p13 ) .( p10 p15 ) .( p12 p15 ) .( p11 p12 ) .( p11 p14 ) .( p13 p14 ) ) ".toList,
     [⟨10, 0, [400], 7, 0⟩, ⟨11, 0, [400], 8, 0⟩, ⟨12, 0, [500], 7, 0⟩, ⟨13, 0, [500], 8, 0⟩, ⟨14, 0, [600], 7, 0⟩,
      ⟨15, 0, [600], 8, 0⟩]⟩ ∧
    (∀ v ∈ vehicles [((200, 700), [400, 500]), ((150, 700), [600])], (statesOf [⟨0, 7⟩, ⟨0, 8⟩] v).length = 2) := by
  decide +kernel

/-- **C101, rendezvous of all vehicles**: each has one state and all take part. -/
theorem C101_all {g : Groups} {states : List Meet} {order : List (Int × List Int) → List (Int × List Int)}
    (hord : ∀ m, (order m).Perm m) (hg : (vehicles g).Nodup) (hn : vehicles g ≠ [])
    (hs : ∀ v ∈ vehicles g, (statesOf states v).length = 1) :
    ∃ (p : Published) (vs : List Int) (num : Int → Int),
      rendezvous g states (vehicles g).length order = .ok p ∧ vs.Perm (vehicles g) ∧ (p.opts.map (·.id)).Nodup ∧
      (∀ v ∈ vehicles g, ∃ o ∈ p.opts, o.id = num v ∧ o.eligible = [v]) ∧
      (∀ o ∈ p.opts, ∃ v ∈ vehicles g, ∃ s ∈ states, (s.entity = 0 ∨ s.entity = v) ∧ o.eligible = [v] ∧ o.place = s.place) ∧
      Means p.composition (vs.map num) (fun w => w = vs.map num) := by
  have hloop : meetLoop states firstId (vehicles g) ([], []) =
      (meetAll states firstId (vehicles g), meetEntries 1 firstId (vehicles g)) := by
    rw [meetLoop_eq (by omega) hg (by simp) hs]; simp
  rw [meetEntries_eq 1 _ _ hg] at hloop
  have hperm := hord ((vehicles g).map fun v => (v, (List.range 1).map fun j => meetNum (vehicles g) 1 firstId v j))
  have hsz : (order ((vehicles g).map fun v => (v, (List.range 1).map fun j => meetNum (vehicles g) 1 firstId v j))).map (fun e => e.2.length) =
      List.replicate (vehicles g).length 1 := by
    rw [List.eq_replicate_iff]
    refine ⟨by simpa using hperm.length_eq, ?_⟩
    intro b hb
    obtain ⟨e, he, rfl⟩ := List.mem_map.mp hb
    obtain ⟨v, -, rfl⟩ := List.mem_map.mp (hperm.subset he)
    simp
  have hlen := hperm.length_eq
  have hvs := hperm.map (·.1)
  rw [List.map_map] at hvs
  have hfront : (order ((vehicles g).map fun v => (v, (List.range 1).map fun j => meetNum (vehicles g) 1 firstId v j))).map (fun e => e.2.headD 0) =
      ((order ((vehicles g).map fun v => (v, (List.range 1).map fun j => meetNum (vehicles g) 1 firstId v j))).map (·.1)).map
        fun v => meetNum (vehicles g) 1 firstId v 0 := by
    rw [List.map_map]
    apply List.map_congr_left
    intro e he
    obtain ⟨v, -, rfl⟩ := List.mem_map.mp (hperm.subset he)
    simp
  have hpos : 0 < (vehicles g).length := List.length_pos_iff.mpr hn
  refine ⟨⟨'.' :: '(' :: ' ' :: (refs ((order ((vehicles g).map fun v => (v, (List.range 1).map fun j => meetNum (vehicles g) 1 firstId v j))).map
      (fun e => e.2.headD 0)) ++ [')']), meetAll states firstId (vehicles g)⟩,
    (order ((vehicles g).map fun v => (v, (List.range 1).map fun j => meetNum (vehicles g) 1 firstId v j))).map (·.1),
    fun v => meetNum (vehicles g) 1 firstId v 0, ?_, ?_, meetAll_ids.1, ?_, ?_, ?_⟩
  · unfold rendezvous
    rw [hloop]
    simp only
    rw [hsz]
    have : stateSize (vehicles g).length 1 (List.replicate (vehicles g).length 1) = some 1 := by
      have : ∀ n, stateSize (vehicles g).length 1 (List.replicate n 1) = some 1 := by
        intro n
        induction n with
        | zero => rfl
        | succ n ih => rw [List.replicate_succ, stateSize, if_pos rfl, ih]
      exact this _
    rw [this]
    simp only
    rw [if_pos ⟨trivial, by rw [hlen]; simp⟩]
  · simpa [Function.comp_def] using hvs
  · intro v hv
    have h₁ := hs v hv
    obtain ⟨s, hs'⟩ := List.length_eq_one_iff.mp h₁
    have := meetAll_mem (states := states) (id := firstId) (j := 0) (s := s) hs hv (by rw [hs']; rfl)
    exact ⟨_, this, rfl, rfl⟩
  · intro o ho
    exact mem_meetAll ho
  · rw [hfront]
    exact means_seq_blank _

example : (∀ v ∈ vehicles [((200, 700), [400, 500])], (statesOf [⟨0, 7⟩] v).length = 1) ∧
    rendezvous [((200, 700), [400, 500])] [⟨0, 7⟩] 2 id =
      .ok ⟨".( p10 p11 )".toList, [⟨10, 0, [400], 7, 0⟩, ⟨11, 0, [500], 7, 0⟩]⟩ := by decide +kernel

/-- **C101 is violated** by two of three vehicles meeting at one place: an exception is thrown, and no options are sent (the
request is never answered). -/
theorem C101_violated_throws : rendezvous [((200, 700), [400, 500, 600])] [⟨0, 7⟩] 2 id = .throws := by decide +kernel

/-- **C101 is violated**: whether the states are consistent depends on the order of a hash table, and when they are found to be
an exception is thrown. -/
theorem C101_violated_order :
    rendezvous [((200, 700), [400, 500])] [⟨0, 7⟩, ⟨500, 8⟩] 2 id = .throws ∧
    rendezvous [((200, 700), [400, 500])] [⟨0, 7⟩, ⟨500, 8⟩] 2 List.reverse = .ok ⟨[], []⟩ := by decide +kernel

/-- **C101 is violated** when there are too few vehicles: a meeting of two is offered with one vehicle, and even with none. -/
theorem C101_violated_fewer :
    (∃ p, rendezvous [((200, 700), [400])] [⟨0, 7⟩, ⟨0, 8⟩] 2 id = .ok p ∧ Means p.composition [10, 11] (fun w => w = [10] ∨ w = [11])) ∧
    ∃ p, rendezvous [] [⟨0, 7⟩, ⟨0, 8⟩] 2 id = .ok p ∧ Means p.composition [] (fun w => w = []) := by
  refine ⟨⟨⟨"+( .( p10 ) .( p11 ) ) ".toList, [⟨10, 0, [400], 7, 0⟩, ⟨11, 0, [400], 8, 0⟩]⟩, by decide +kernel, ?_⟩,
    ⟨⟨"+( .( ) .( ) ) ".toList, []⟩, by decide +kernel, ?_⟩⟩
  · have := means_alts [[10], [11]]
    exact (this.congr (by simp) (by simp))
  · have := means_alts [[], []]
    exact (this.congr (by simp) (by simp))

/-- **C101 is violated** by nine vehicles of which two meet: of the 72 meetings only 64 are allowed. -/
theorem C101_violated_limit : ∃ (p : Published) (ids : List Int) (orders : List (List Int)),
    rendezvous [((200, 700), [1, 2, 3, 4, 5, 6, 7, 8, 9])] [⟨0, 7⟩, ⟨0, 8⟩] 2 id = .ok p ∧
    Means p.composition ids (fun w => w ∈ orders) ∧ orders.length = 64 ∧ [25, 26] ∉ orders ∧
    ({ id := 25, eligible := [8], place := 8 } : Opt) ∈ p.opts ∧ ({ id := 26, eligible := [9], place := 7 } : Opt) ∈ p.opts := by
  have h : ∃ orders : List (List Int), pickAll (meetLoop [⟨0, 7⟩, ⟨0, 8⟩] 10 [1, 2, 3, 4, 5, 6, 7, 8, 9] ([], [])).2
      (meetRounds (firstMask 9 2) 64 (List.range 2)) = some orders ∧ orders.length = 64 ∧ [25, 26] ∉ orders := by
    refine ⟨(pickAll (meetLoop [⟨0, 7⟩, ⟨0, 8⟩] 10 [1, 2, 3, 4, 5, 6, 7, 8, 9] ([], [])).2
      (meetRounds (firstMask 9 2) 64 (List.range 2))).getD [], ?_⟩
    decide +kernel
  obtain ⟨orders, h₁, h₂, h₃⟩ := h
  have o₁ : ({ id := 25, eligible := [8], place := 8 } : Opt) ∈
      (meetLoop [⟨0, 7⟩, ⟨0, 8⟩] 10 [1, 2, 3, 4, 5, 6, 7, 8, 9] ([], [])).1 := by decide +kernel
  have o₂ : ({ id := 26, eligible := [9], place := 7 } : Opt) ∈
      (meetLoop [⟨0, 7⟩, ⟨0, 8⟩] 10 [1, 2, 3, 4, 5, 6, 7, 8, 9] ([], [])).1 := by decide +kernel
  refine ⟨⟨'+' :: '(' :: ' ' :: (orders.flatMap altText ++ [')', ' ']),
    (meetLoop [⟨0, 7⟩, ⟨0, 8⟩] 10 [1, 2, 3, 4, 5, 6, 7, 8, 9] ([], [])).1⟩, _, orders, ?_, means_alts _, h₂, h₃,
    o₁, o₂⟩
  have e : vehicles [((200, 700), [1, 2, 3, 4, 5, 6, 7, 8, 9])] = [1, 2, 3, 4, 5, 6, 7, 8, 9] := by decide
  have hs : stateSize 2 1 ((meetLoop [⟨0, 7⟩, ⟨0, 8⟩] 10 [1, 2, 3, 4, 5, 6, 7, 8, 9] ([], [])).2.map (·.2.length)) = some 2 := by
    decide +kernel
  have hl : (meetLoop [⟨0, 7⟩, ⟨0, 8⟩] 10 [1, 2, 3, 4, 5, 6, 7, 8, 9] ([], [])).2.length = 9 := by decide +kernel
  simp only [rendezvous, e, id, firstId, hs, hl]
  rw [if_neg (by decide)]
  rw [h₁]

end Verif.Options
