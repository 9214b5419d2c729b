/-
C113: no history is undefined in which the configurations of surface vehicles are
those of surface vehicles.
-/
import Verif.RoutePlanner.Cases

namespace Verif.RoutePlanner

open Verif.Visibility (Pt)

variable (lib : Lib)

/-- Each surface vehicle that is configured has a water area. -/
def Fit (s : St) : Prop := ∀ v ∈ s.surfs, ∀ c, s.configs.get v = some c → c.water ≠ none

theorem Fit.alike {s s' : St} (h : Fit s) (ha : Alike s s') : Fit s' := by
  unfold Fit
  rw [ha.2.1, ha.2.2.2.2.2.2.1]
  exact h

theorem surfs_total (r : Region) (l : List Int) (s : St) (hs : Fit s) (hl : ∀ v ∈ l, v ∈ s.surfs) :
    ∃ s', l.foldl (fun (o : Outcome St) v => o.bind fun s => s.surf lib r v) (.ok s) = .ok s' := by
  induction l generalizing s with
  | nil => exact ⟨s, rfl⟩
  | cons v l ih =>
    have hv := hs v (hl v (by simp))
    rw [List.foldl_cons, Outcome.bind_ok]
    have : ∃ s₁, s.surf lib r v = .ok s₁ ∧ Alike s s₁ := by
      unfold St.surf
      cases hc : s.configs.get v with
      | none => exact ⟨_, rfl, build_alike lib _ _ _ _⟩
      | some c =>
        dsimp only
        cases hw : c.water with
        | none => exact absurd hw (hv c hc)
        | some a => exact ⟨_, rfl, build_alike lib _ _ _ _⟩
    obtain ⟨s₁, e, ha⟩ := this
    rw [e]
    refine ih s₁ (hs.alike ha) fun u hu => ?_
    rw [ha.2.2.2.2.2.2.1]
    exact hl u (List.mem_cons_of_mem _ hu)

theorem buildRegion_total (s : St) (r : Region) (hs : Fit s) :
    ∃ s', s.buildRegion lib r = .ok s' ∧ Alike s s' := by
  have ha := (clear_alike s r).trans
    (foldl_alike _ (fun s v => build_alike lib s r v none) s.airs (s.clear r))
  obtain ⟨s', e⟩ := surfs_total lib r s.surfs _ (hs.alike ha) fun v hv => by
    rw [ha.2.2.2.2.2.2.1]; exact hv
  rw [← buildRegion_eq] at e
  exact ⟨s', e, buildRegion_alike lib e⟩

theorem rebuild_total (s : St) (names : Region → List Int) (id : Int) (hs : Fit s) :
    ∃ s', s.rebuild lib names id = .ok s' := by
  unfold St.rebuild
  generalize hl : s.regions = l
  clear hl
  induction l generalizing s with
  | nil => exact ⟨s, rfl⟩
  | cons r l ih =>
    rw [List.foldl_cons, Outcome.bind_ok]
    by_cases k : id ∈ names r.2
    · rw [if_pos k]
      obtain ⟨s₁, e, ha⟩ := buildRegion_total lib s r.2 hs
      rw [e]
      exact ih s₁ (hs.alike ha)
    · rw [if_neg k]; exact ih s hs

/-- **C113.**  If no vehicle that is on the water is given a configuration other than
that of a surface vehicle, every message is taken up without undefined behaviour;
vehicles in the air, zones, water areas and regions may come in any order. -/
theorem C113_total {lib : Lib} {h : List Msg}
    (hk : ∀ m ∈ h, ∀ v, m.onWater v = true → ∀ m' ∈ h, m'.nominal v ≠ none → m'.onWater v = true) :
    ∃ s, St.after lib h = .ok s := by
  suffices ∃ s, St.after lib h = .ok s ∧ ∀ v c, s.configs.get v = some c → c.water = none →
      ∃ m ∈ h, m.nominal v ≠ none ∧ m.onWater v = false from this.elim fun s h => ⟨s, h.1⟩
  induction h using snocRec with
  | nil => exact ⟨{}, rfl, by simp [Map.get]⟩
  | append_singleton h m ih =>
    obtain ⟨s, e, hs⟩ := ih fun m hm v hv m' hm' =>
      hk m (List.mem_append_left _ hm) v hv m' (List.mem_append_left _ hm')
    have old : ∀ v c, s.configs.get v = some c → c.water = none →
        ∃ x ∈ h ++ [m], x.nominal v ≠ none ∧ x.onWater v = false := by
      intro v c hc hw
      obtain ⟨x, hx, h₁⟩ := hs v c hc hw
      exact ⟨x, List.mem_append_left _ hx, h₁⟩
    have fit : Fit s := by
      intro v hv c hc hw
      obtain ⟨m₁, hm₁, h₁⟩ := ((after_known e).2.1 v).mp hv
      obtain ⟨m₂, hm₂, h₂, h₃⟩ := hs v c hc hw
      rw [hk m₁ (List.mem_append_left _ hm₁) v h₁ m₂ (List.mem_append_left _ hm₂) h₂] at h₃
      cases h₃
    have put : ∀ id sp al, m.nominal id ≠ none → m.onWater id = false → ∀ v c,
        (s.configs.put id { speed := sp, alt := al }).get v = some c → c.water = none →
        ∃ x ∈ h ++ [m], x.nominal v ≠ none ∧ x.onWater v = false := by
      intro id sp al h₁ h₂ v c hc hw
      rw [Map.get_put] at hc
      split at hc
      · rename_i k; subst k; exact ⟨m, by simp, h₁, h₂⟩
      · exact old v c hc hw
    rw [after_snoc, e, Outcome.bind_ok]
    cases m with
    | request src r => exact ⟨s, rfl, old⟩
    | state id x => exact ⟨_, rfl, old⟩
    | groundState id x => exact ⟨_, rfl, old⟩
    | config id sp al => exact ⟨_, rfl, put id sp al (by simp [Msg.nominal]) rfl⟩
    | groundConfig id sp al => exact ⟨_, rfl, put id sp al (by simp [Msg.nominal]) rfl⟩
    | airState id x =>
      refine ⟨_, rfl, ?_⟩
      dsimp only
      split
      · exact old
      · rw [(newVehicle_alike lib _ _ _).2.1]; exact old
    | surfaceState id x =>
      refine ⟨_, rfl, ?_⟩
      dsimp only
      split
      · exact old
      · rw [(newVehicle_alike lib _ _ _).2.1]; exact old
    | airConfig id sp al ex =>
      refine ⟨_, rfl, ?_⟩
      dsimp only
      split
      · exact put id sp al (by simp [Msg.nominal]) rfl
      · rw [(newVehicle_alike lib _ _ _).2.1]; exact put id sp al (by simp [Msg.nominal]) rfl
    | surfaceConfig id sp al ar =>
      refine ⟨_, rfl, ?_⟩
      dsimp only
      have : (if (s.configs.get id).isSome then s else s.newSurface lib id ar).configs = s.configs := by
        split
        · rfl
        · exact (newSurface_alike lib _ _ _).2.1
      rw [this]
      intro v c hc hw
      rw [Map.get_put] at hc
      split at hc
      · cases hc; cases hw
      · exact old v c hc hw
    | water id b =>
      refine ⟨_, rfl, ?_⟩
      have := (foldl_alike
        (fun s (c : Int × Config) => if c.2.water = some id then s.newSurface lib c.1 id else s)
        (fun s c => by
          split
          · exact newSurface_alike lib _ _ _
          · exact .refl _) s.configs { s with waters := s.waters.put id b }).2.1
      rw [this]
      exact old
    | keepIn z =>
      have : ∃ s', s.upd lib (.keepIn z) = .ok s' := by
        simp only [St.upd]
        cases s.ins.get z.id with
        | none => exact ⟨_, rfl⟩
        | some y =>
          dsimp only
          split
          · exact ⟨_, rfl⟩
          · obtain ⟨s', e'⟩ := rebuild_total lib s (·.ins) z.id fit
            rw [e']; exact ⟨_, rfl⟩
      obtain ⟨s', e'⟩ := this
      obtain ⟨s₁, ha, rfl, -⟩ := upd_keepIn lib e'
      refine ⟨_, e', ?_⟩
      dsimp only
      rw [ha.2.1]; exact old
    | keepOut z =>
      have : ∃ s', s.upd lib (.keepOut z) = .ok s' := by
        simp only [St.upd]
        cases s.outs.get z.id with
        | none => exact ⟨_, rfl⟩
        | some y =>
          dsimp only
          split
          · exact ⟨_, rfl⟩
          · obtain ⟨s', e'⟩ := rebuild_total lib s (·.outs) z.id fit
            rw [e']; exact ⟨_, rfl⟩
      obtain ⟨s', e'⟩ := this
      obtain ⟨s₁, ha, rfl, -⟩ := upd_keepOut lib e'
      refine ⟨_, e', ?_⟩
      dsimp only
      rw [ha.2.1]; exact old
    | region r =>
      simp only [St.upd]
      cases s.regions.get r.id with
      | none =>
        obtain ⟨s', e', ha⟩ := buildRegion_total lib
          { s with regions := s.regions.put r.id r } r fit
        refine ⟨s', e', ?_⟩
        rw [ha.2.1]; exact old
      | some q =>
        dsimp only
        split
        · exact ⟨_, rfl, old⟩
        · obtain ⟨s', e', ha⟩ := buildRegion_total lib s r fit
          refine ⟨s', e', ?_⟩
          rw [ha.2.1]; exact old

/-- The hypotheses can be met with a surface vehicle and a changed zone. -/
example : ∃ s, St.after boxes
    [.surfaceState 9 ⟨1, ⟨0, 0⟩, 0⟩, .surfaceConfig 9 1 0 5, .water 5 (some (square 0 0 10)),
     .keepOut wall, .region { id := 3, outs := [2] }, seven, .airConfig 7 1 1 true,
     .keepOut { wall with padding := 3 }] = .ok s :=
  C113_total (by simp [seven, Msg.onWater, Msg.nominal])

end Verif.RoutePlanner
