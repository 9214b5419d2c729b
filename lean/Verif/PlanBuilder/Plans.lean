import Verif.PlanBuilder.Lemmas

/-! The missions after each answer are those the answers so far make. -/

namespace Verif.PlanBuilder

open Verif

theorem setLast_eq (n : Int) : ∀ ws : List Wp,
    setLast n ws = ws.dropLast ++ (ws.getLast?.map fun w => { w with next := n }).toList
  | [] => rfl
  | [w] => rfl
  | w :: w' :: ws => by
    rw [setLast, setLast_eq n (w' :: ws)]
    simp [List.dropLast]

theorem setLast_append (n : Int) : ∀ (a b : List Wp), b ≠ [] → setLast n (a ++ b) = a ++ setLast n b
  | [], b, _ => rfl
  | [w], b, h => by
    cases b with
    | nil => exact absurd rfl h
    | cons x b => rfl
  | w :: w' :: a, b, h => by
    have := setLast_append n (w' :: a) b h
    simp only [List.cons_append] at this ⊢
    rw [setLast, this]

theorem joined_ne_nil : ∀ {xs : List (List Wp)}, xs ≠ [] → (∀ x ∈ xs, x ≠ []) → joined xs ≠ []
  | [], h, _ => absurd rfl h
  | [a], _, h => h a (by simp)
  | a :: b :: rest, _, h => by
    rw [joined]
    have := joined_ne_nil (xs := b :: rest) (by simp) (fun x hx => h x (List.mem_cons_of_mem _ hx))
    simp [this]

theorem joined_snoc (ws : List Wp) : ∀ (xs : List (List Wp)), xs ≠ [] → (∀ x ∈ xs, x ≠ []) →
    joined (xs ++ [ws]) = setLast ((ws.map (·.number)).headD 0) (joined xs) ++ ws
  | [], h, _ => absurd rfl h
  | [a], _, _ => by
    simp only [List.singleton_append, joined, setLast_eq]
    cases ws <;> rfl
  | a :: b :: rest, _, h => by
    have hb := joined_ne_nil (xs := b :: rest) (by simp) (fun x hx => h x (List.mem_cons_of_mem _ hx))
    have ih := joined_snoc ws (b :: rest) (by simp) (fun x hx => h x (List.mem_cons_of_mem _ hx))
    simp only [List.cons_append] at ih ⊢
    rw [joined, joined, setLast_append _ _ _ hb, ih]
    simp only [List.append_assoc]

theorem givenFor_append (v : Int) (rs : List Response) (r : Response) :
    givenFor v (rs ++ [r]) = givenFor v rs ++ if r.vehicle = v ∧ r.wps ≠ [] then [r] else [] := by
  simp only [givenFor, List.filter_append]
  congr 1
  by_cases h : r.vehicle = v ∧ r.wps ≠ []
  · rw [if_pos h]; simp [List.filter_cons, h.1, h.2]
  · rw [if_neg h]
    have : (r.vehicle == v && r.wps != []) = false := by
      cases hh : (r.vehicle == v && r.wps != [])
      · rfl
      · simp only [Bool.and_eq_true, beq_iff_eq, bne_iff_ne] at hh; exact absurd hh h
    simp [List.filter_cons, this]

theorem givenFor_ne {v : Int} {rs : List Response} {r : Response} (h : r ∈ givenFor v rs) : r.wps ≠ [] := by
  simp only [givenFor, List.mem_filter, Bool.and_eq_true, bne_iff_ne, ne_eq] at h
  exact h.2.2

theorem givenFor_eq_nil {v : Int} {rs : List Response} (h : ¬ ∃ r ∈ rs, r.vehicle = v ∧ r.wps ≠ []) :
    givenFor v rs = [] := by
  simp only [givenFor, List.filter_eq_nil_iff, Bool.and_eq_true, beq_iff_eq, bne_iff_ne]
  exact fun r hr hh => h ⟨r, hr, hh⟩

theorem extend_vehicles (v : Int) (ws : List Wp) : ∀ ms : List Mission,
    (extend v ws ms).map (·.vehicle) = ms.map (·.vehicle)
  | [] => rfl
  | m :: ms => by
    rw [extend]
    by_cases h : m.vehicle = v
    · simp [h]
    · simp [h, extend_vehicles v ws ms]

theorem extend_commands (v : Int) (ws : List Wp) : ∀ ms : List Mission,
    (extend v ws ms).map (·.command) = ms.map (·.command)
  | [] => rfl
  | m :: ms => by
    rw [extend]
    by_cases h : m.vehicle = v
    · simp [h]
    · simp [h, extend_commands v ws ms]

theorem mem_extend (v : Int) (ws : List Wp) : ∀ {ms : List Mission} (_ : (ms.map (·.vehicle)).Nodup) {m : Mission},
    m ∈ extend v ws ms →
      (m.vehicle ≠ v ∧ m ∈ ms) ∨
      (∃ m' ∈ ms, m'.vehicle = v ∧ m = { m' with wps := setLast ((ws.map (·.number)).headD 0) m'.wps ++ ws })
  | [], _, m, h => by simp [extend] at h
  | m0 :: ms, hn, m, h => by
    simp only [List.map_cons, List.nodup_cons] at hn
    rw [extend] at h
    by_cases hv : m0.vehicle = v
    · rw [if_pos hv] at h
      rcases List.mem_cons.mp h with rfl | h
      · exact .inr ⟨m0, by simp, hv, rfl⟩
      · left
        refine ⟨fun hh => hn.1 ?_, List.mem_cons_of_mem _ h⟩
        rw [hv, ← hh]
        exact List.mem_map_of_mem (f := (·.vehicle)) h
    · rw [if_neg hv] at h
      rcases List.mem_cons.mp h with rfl | h
      · exact .inl ⟨hv, by simp⟩
      · rcases mem_extend v ws hn.2 h with ⟨h1, h2⟩ | ⟨m', h1, h2, h3⟩
        · exact .inl ⟨h1, List.mem_cons_of_mem _ h2⟩
        · exact .inr ⟨m', List.mem_cons_of_mem _ h1, h2, h3⟩

theorem IsPlan.nil (opens : Response → Mission → Prop) : IsPlan opens [] [] :=
  ⟨List.nodup_nil, by simp, by simp⟩

/-- One more answer. -/
theorem IsPlan.absorbed {opens : Response → Mission → Prop} {rs : List Response} {ms : List Mission}
    (h : IsPlan opens rs ms) (s : St) (r : Response) (ho : r.wps ≠ [] → opens r (s.newMission r))
    (hne : ∀ r m, opens r m → r.wps ≠ [] → m.wps ≠ []) :
    IsPlan opens (rs ++ [r]) (s.absorbed r ms) := by
  by_cases hw : r.wps = []
  · rw [St.absorbed, if_pos hw]
    refine ⟨h.one, fun v => ?_, fun m hm => ?_⟩
    · rw [h.vehicles v]
      constructor
      · rintro ⟨r', hr, hh⟩; exact ⟨r', List.mem_append_left _ hr, hh⟩
      · rintro ⟨r', hr, hh⟩
        rcases List.mem_append.mp hr with hr | hr
        · exact ⟨r', hr, hh⟩
        · simp only [List.mem_singleton] at hr; subst hr; exact absurd hw hh.2
    · obtain ⟨r1, rest, m0, h1, h2⟩ := h.content m hm
      refine ⟨r1, rest, m0, ?_, h2⟩
      rw [givenFor_append, if_neg (fun hh => hh.2 hw), List.append_nil, h1]
  · rw [St.absorbed, if_neg hw]
    have hvs : ∀ v, (∃ r' ∈ rs ++ [r], r'.vehicle = v ∧ r'.wps ≠ []) ↔ v ∈ ms.map (·.vehicle) ∨ v = r.vehicle := by
      intro v
      rw [h.vehicles v]
      constructor
      · rintro ⟨r', hr, hh⟩
        rcases List.mem_append.mp hr with hr | hr
        · exact .inl ⟨r', hr, hh⟩
        · simp only [List.mem_singleton] at hr; subst hr; exact .inr hh.1.symm
      · rintro (⟨r', hr, hh⟩ | rfl)
        · exact ⟨r', List.mem_append_left _ hr, hh⟩
        · exact ⟨r, by simp, rfl, hw⟩
    by_cases hf : ms.any (·.vehicle == r.vehicle) = true
    · rw [if_pos hf]
      have hmem : r.vehicle ∈ ms.map (·.vehicle) := by simpa using hf
      refine ⟨by rw [extend_vehicles]; exact h.one, fun v => ?_, fun m hm => ?_⟩
      · rw [extend_vehicles, hvs]
        exact ⟨.inl, fun hh => hh.elim (fun x => x) (fun x => x ▸ hmem)⟩
      · rcases mem_extend _ _ h.one hm with ⟨hne, hm'⟩ | ⟨m', hm', hv, rfl⟩
        · obtain ⟨r1, rest, m0, h1, h2⟩ := h.content m hm'
          refine ⟨r1, rest, m0, ?_, h2⟩
          rw [givenFor_append, if_neg (fun hh => hne hh.1.symm), List.append_nil, h1]
        · obtain ⟨r1, rest, m0, h1, h2, h3⟩ := h.content m' hm'
          refine ⟨r1, rest ++ [r], m0, ?_, h2, ?_⟩
          · dsimp only
            rw [givenFor_append, if_pos ⟨hv.symm, hw⟩, h1, List.cons_append]
          · rw [h3]
            have hg : ∀ x ∈ r1 :: rest, x.wps ≠ [] := by
              rw [← h1]; exact fun x hx => givenFor_ne hx
            rw [List.map_append, List.map_cons, List.map_nil, ← List.cons_append, joined_snoc _ _ (by simp)]
            intro x hx
            rcases List.mem_cons.mp hx with rfl | hx
            · exact hne r1 m0 h2 (hg r1 (by simp))
            · obtain ⟨y, hy, rfl⟩ := List.mem_map.mp hx
              exact hg y (List.mem_cons_of_mem _ hy)
    · rw [if_neg hf]
      have hmem : r.vehicle ∉ ms.map (·.vehicle) := by simpa using hf
      refine ⟨?_, fun v => ?_, fun m hm => ?_⟩
      · rw [List.map_append, List.nodup_append]
        refine ⟨h.one, by simp, ?_⟩
        intro a ha b hb
        simp only [List.map_cons, List.map_nil, List.mem_singleton, St.newMission] at hb
        rintro rfl
        exact hmem (hb ▸ ha)
      · rw [hvs, List.map_append, List.mem_append]
        simp [St.newMission]
      · rcases List.mem_append.mp hm with hm' | hm'
        · obtain ⟨r1, rest, m0, h1, h2⟩ := h.content m hm'
          refine ⟨r1, rest, m0, ?_, h2⟩
          have hne : r.vehicle ≠ m.vehicle := fun hh => hmem (hh ▸ List.mem_map_of_mem (f := (·.vehicle)) hm')
          rw [givenFor_append, if_neg (fun hh => hne hh.1), List.append_nil, h1]
        · simp only [List.mem_singleton] at hm'
          subst hm'
          refine ⟨r, [], s.newMission r, ?_, ho hw, rfl⟩
          have : givenFor r.vehicle rs = [] := givenFor_eq_nil (fun hh => hmem ((h.vehicles _).mpr hh))
          show givenFor r.vehicle (rs ++ [r]) = _
          rw [givenFor_append, if_pos ⟨rfl, hw⟩, this, List.nil_append]

theorem newMission_opening (s : St) (r : Response) {os : List Override} (h : ∀ p ∈ s.overrides, ∀ o ∈ p.2, o ∈ os) :
    Opening os r (s.newMission r) := by
  refine ⟨rfl, ?_, s.overridesFor r.vehicle r.task, ?_, rfl⟩
  · show (r.wps.map (·.number)).headD 0 = _
    cases r.wps <;> rfl
  · intro o hoo
    simp only [St.overridesFor, List.mem_filter, List.mem_flatMap, Bool.and_eq_true, beq_iff_eq, Bool.or_eq_true] at hoo
    obtain ⟨⟨p, hp, hop⟩, hov, ht⟩ := hoo
    exact ⟨h p hp o hop, hov, ht⟩

end Verif.PlanBuilder
