/-
What the handlers of the route planner change: lemmas for C112 and C113.
-/
import Verif.RoutePlanner.Model
import Verif.Visibility.ServiceProps
import Verif.Trace

namespace Verif.RoutePlanner

open Verif.Visibility (Pt toInt64 trunc toInt64_ok)

/-! ### All but the environments stay -/

/-- The states agree but for the environments. -/
def Alike (s s' : St) : Prop :=
  s'.states = s.states ∧ s'.configs = s.configs ∧ s'.ins = s.ins ∧ s'.outs = s.outs ∧
    s'.regions = s.regions ∧ s'.airs = s.airs ∧ s'.surfs = s.surfs ∧ s'.waters = s.waters

theorem Alike.refl (s : St) : Alike s s := ⟨rfl, rfl, rfl, rfl, rfl, rfl, rfl, rfl⟩

theorem Alike.trans {s₁ s₂ s₃ : St} (h : Alike s₁ s₂) (h' : Alike s₂ s₃) : Alike s₁ s₃ := by
  unfold Alike at *
  grind

theorem foldl_alike {α : Type} (f : St → α → St) (hf : ∀ s a, Alike s (f s a)) (l : List α) (s : St) :
    Alike s (l.foldl f s) := by
  induction l generalizing s with
  | nil => exact .refl s
  | cons a l ih => exact (hf s a).trans (ih _)

theorem foldl_bind_alike {α : Type} (f : St → α → Outcome St)
    (hf : ∀ s a s', f s a = .ok s' → Alike s s') (l : List α) (o : Outcome St) {s' : St}
    (h : l.foldl (fun o a => o.bind fun s => f s a) o = .ok s') :
    ∃ s, o = .ok s ∧ Alike s s' := by
  induction l generalizing o with
  | nil => exact ⟨s', h, .refl _⟩
  | cons a l ih =>
    obtain ⟨s₁, e, h₁⟩ := ih _ h
    obtain ⟨s, rfl, e⟩ := Outcome.bind_eq_ok.mp e
    exact ⟨s, rfl, (hf _ _ _ e).trans h₁⟩

variable (lib : Lib)

theorem build_alike (s : St) (r : Region) (v : Int) (w : Option Poly) :
    Alike s (s.build lib r v w) := by
  unfold St.build
  split
  · exact .refl s
  · exact ⟨rfl, rfl, rfl, rfl, rfl, rfl, rfl, rfl⟩

theorem newVehicle_alike (s : St) (v : Int) (w : Option Poly) : Alike s (s.newVehicle lib v w) :=
  foldl_alike _ (fun s (r : Int × Region) => build_alike lib s r.2 v w) _ _

theorem newSurface_alike (s : St) (v a : Int) : Alike s (s.newSurface lib v a) := by
  unfold St.newSurface
  dsimp only
  split
  · exact newVehicle_alike lib s v _
  · exact (newVehicle_alike lib s v _).trans (build_alike lib _ _ v _)

/-- The region's environments forgotten. -/
def St.clear (s : St) (r : Region) : St :=
  match s.envs.get r.id with
  | none => s
  | some _ => { s with envs := s.envs.put r.id [] }

theorem clear_alike (s : St) (r : Region) : Alike s (s.clear r) := by
  unfold St.clear
  split
  · exact .refl s
  · exact ⟨rfl, rfl, rfl, rfl, rfl, rfl, rfl, rfl⟩

/-- One surface vehicle. -/
def St.surf (s : St) (r : Region) (v : Int) : Outcome St :=
  match s.configs.get v with
  | none => .ok (s.build lib r v none)
  | some c => match c.water with
    | none => .ub
    | some a => .ok (s.build lib r v (s.waterOf a))

theorem surf_ok {s s' : St} {r : Region} {v : Int} (h : s.surf lib r v = .ok s') :
    ∃ w, s' = s.build lib r v w := by
  unfold St.surf at h
  split at h
  · cases h; exact ⟨_, rfl⟩
  · split at h
    · cases h
    · cases h; exact ⟨_, rfl⟩

theorem buildRegion_eq (s : St) (r : Region) :
    s.buildRegion lib r =
      s.surfs.foldl (fun o v => o.bind fun s => s.surf lib r v)
        (.ok (s.airs.foldl (fun s v => s.build lib r v none) (s.clear r))) := by
  have e : (s.clear r).airs = s.airs := (clear_alike s r).2.2.2.2.2.1
  have e' : ((s.clear r).airs.foldl (fun s v => s.build lib r v none) (s.clear r)).surfs = s.surfs :=
    (foldl_alike _ (fun s v => build_alike lib s r v none) _ _).2.2.2.2.2.2.1.trans
      (clear_alike s r).2.2.2.2.2.2.1
  unfold St.buildRegion
  dsimp only
  change ((s.clear r).airs.foldl (fun s v => s.build lib r v none) (s.clear r)).surfs.foldl
    (fun (o : Outcome St) v => o.bind fun s => s.surf lib r v)
    (Outcome.ok ((s.clear r).airs.foldl (fun s v => s.build lib r v none) (s.clear r))) = _
  rw [e', e]

theorem buildRegion_alike {s s' : St} {r : Region} (h : s.buildRegion lib r = .ok s') : Alike s s' := by
  rw [buildRegion_eq] at h
  obtain ⟨s₁, e, h₁⟩ := foldl_bind_alike (fun s v => s.surf lib r v)
    (fun s v s' h => by obtain ⟨w, rfl⟩ := surf_ok lib h; exact build_alike lib s r v w) _ _ h
  cases e
  exact ((clear_alike s r).trans (foldl_alike _ (fun s v => build_alike lib s r v none) _ _)).trans h₁

theorem rebuild_alike {s s' : St} {names : Region → List Int} {id : Int}
    (h : s.rebuild lib names id = .ok s') : Alike s s' := by
  obtain ⟨s₁, e, h₁⟩ := foldl_bind_alike
    (fun s (r : Int × Region) => if id ∈ names r.2 then s.buildRegion lib r.2 else .ok s)
    (fun s r s' h => by
      by_cases k : id ∈ names r.2
      · rw [if_pos k] at h; exact buildRegion_alike lib h
      · rw [if_neg k] at h; cases h; exact .refl _) _ _ h
  cases e
  exact h₁

/-! ### The environments -/

theorem env_build (s : St) (r : Region) (v : Int) (w : Option Poly) (i u : Int) :
    (s.build lib r v w).env i u =
      if i = r.id ∧ u = v then (buildEnv lib s.ins s.outs r v w).or (s.env i u) else s.env i u := by
  unfold St.build
  cases e : buildEnv lib s.ins s.outs r v w with
  | none => simp
  | some b =>
    simp only [St.env, Map.get_put]
    by_cases hi : i = r.id
    · subst hi
      by_cases hu : u = v
      · simp [hu, Map.get_put]
      · simp only [if_true, Option.bind_some, Map.get_put, hu, if_false, and_false]
        cases s.envs.get r.id with
        | none => simp [Map.get]
        | some m => simp
    · simp [hi]

theorem env_foldl_build (r : Region) (l : List Int) (s : St) (i u : Int) :
    (l.foldl (fun s v => s.build lib r v none) s).env i u =
      if i = r.id ∧ u ∈ l then (buildEnv lib s.ins s.outs r u none).or (s.env i u)
      else s.env i u := by
  induction l generalizing s with
  | nil => simp
  | cons v l ih =>
    rw [List.foldl_cons, ih, env_build]
    obtain ⟨-, -, e₁, e₂, -⟩ := build_alike lib s r v none
    rw [e₁, e₂]
    by_cases hi : i = r.id
    · by_cases hv : u = v
      · subst hv
        by_cases hl : u ∈ l
        · simp only [hi, hl, and_self, List.mem_cons, or_true, if_true]
          cases buildEnv lib s.ins s.outs r u none <;> simp
        · simp [hi, hl]
      · by_cases hl : u ∈ l <;> simp [hi, hl, hv]
    · simp [hi]

theorem env_foldl_regions (l : List (Int × Region)) (s : St) (v : Int) (w : Option Poly) (i u : Int)
    (hu : u ≠ v) : (l.foldl (fun s r => s.build lib r.2 v w) s).env i u = s.env i u := by
  induction l generalizing s with
  | nil => rfl
  | cons a l ih => rw [List.foldl_cons, ih, env_build, if_neg (fun h => hu h.2)]

theorem env_newSurface (s : St) (v a i u : Int) (hu : u ≠ v) :
    (s.newSurface lib v a).env i u = s.env i u := by
  unfold St.newSurface
  dsimp only
  split
  · exact env_foldl_regions lib _ _ _ _ _ _ hu
  · rw [env_build, if_neg (fun h => hu h.2)]
    exact env_foldl_regions lib _ _ _ _ _ _ hu

theorem get_of_mem {β : Type} {k : Int} {b : β} {l : List (Int × β)} :
    Map.get (β := β) ((k, b) :: l) k = some b := by simp [Map.get]

theorem env_newVehicle_aux (l : Map Region) (hk : ∀ p ∈ l, p.1 = p.2.id) (hn : (l.map (·.1)).Nodup)
    (s : St) (v : Int) (w : Option Poly) (i : Int) :
    (l.foldl (fun s r => s.build lib r.2 v w) s).env i v =
      ((Map.get l i).bind fun r => buildEnv lib s.ins s.outs r v w).or (s.env i v) := by
  induction l generalizing s with
  | nil => simp [Map.get]
  | cons a l ih =>
    obtain ⟨h₁, h₂⟩ := List.nodup_cons.mp hn
    rw [List.foldl_cons, ih (fun p hp => hk p (List.mem_cons_of_mem _ hp)) h₂, env_build]
    obtain ⟨-, -, e₁, e₂, -⟩ := build_alike lib s a.2 v w
    rw [e₁, e₂]
    have ea := hk a (by simp)
    by_cases hi : i = a.2.id
    · have hl : Map.get l i = none := by
        cases e : Map.get l i with
        | none => rfl
        | some b =>
          have : i ∈ l.map (·.1) := Map.get_isSome_iff.mp (by rw [e]; rfl)
          exact absurd (show a.1 ∈ l.map (·.1) by rw [ea, ← hi]; exact this) h₁
      have ha : Map.get (a :: l) i = some a.2 := by simp [Map.get, ea, hi]
      rw [hl, ha]
      simp [hi]
    · have ha : Map.get (a :: l) i = Map.get l i := by
        have : ¬ a.1 = i := fun e => hi (by rw [← e, ea])
        simp [Map.get, this]
      rw [ha]
      simp [hi]

theorem env_newVehicle {s : St} (hk : ∀ p ∈ s.regions, p.1 = p.2.id)
    (hn : (s.regions.map (·.1)).Nodup) (v : Int) (w : Option Poly) (i u : Int) :
    (s.newVehicle lib v w).env i u =
      if u = v then ((s.regions.get i).bind fun r => buildEnv lib s.ins s.outs r v w).or (s.env i u)
      else s.env i u := by
  by_cases hu : u = v
  · subst hu
    rw [if_pos rfl]
    exact env_newVehicle_aux lib _ hk hn s u w i
  · rw [if_neg hu]
    exact env_foldl_regions lib _ _ _ _ _ _ hu

theorem env_clear (s : St) (r : Region) (i u : Int) :
    (s.clear r).env i u = if i = r.id then none else s.env i u := by
  unfold St.clear
  cases e : s.envs.get r.id with
  | none =>
    by_cases hi : i = r.id
    · simp [St.env, hi, e]
    · simp [hi]
  | some m =>
    simp only [St.env, Map.get_put]
    by_cases hi : i = r.id
    · simp [hi, Map.get]
    · simp [hi]

theorem env_surfs (r : Region) (l : List Int) (o : Outcome St) {s' : St}
    (h : l.foldl (fun o v => o.bind fun s => s.surf lib r v) o = .ok s') (i u : Int) (hu : u ∉ l) :
    ∃ s, o = .ok s ∧ s'.env i u = s.env i u := by
  induction l generalizing o with
  | nil => exact ⟨s', h, rfl⟩
  | cons v l ih =>
    rw [List.mem_cons, not_or] at hu
    obtain ⟨s₁, e, h₁⟩ := ih _ h hu.2
    obtain ⟨s, rfl, e⟩ := Outcome.bind_eq_ok.mp e
    obtain ⟨w, rfl⟩ := surf_ok lib e
    exact ⟨s, rfl, by rw [h₁, env_build, if_neg (fun k => hu.1 k.2)]⟩

/-- The environments after a region is built, for a vehicle that is not on the
water. -/
theorem env_buildRegion {s s' : St} {r : Region} (h : s.buildRegion lib r = .ok s') (i u : Int)
    (hu : u ∉ s.surfs) :
    s'.env i u = if i = r.id then (if u ∈ s.airs then buildEnv lib s.ins s.outs r u none else none)
      else s.env i u := by
  rw [buildRegion_eq] at h
  obtain ⟨s₁, e, h₁⟩ := env_surfs lib r _ _ h i u hu
  cases e
  rw [h₁, env_foldl_build, env_clear]
  obtain ⟨-, -, e₁, e₂, -⟩ := clear_alike s r
  rw [e₁, e₂]
  by_cases hi : i = r.id <;> by_cases ha : u ∈ s.airs <;> simp [hi, ha]

/-! ### What an environment depends on -/

theorem outlines_congr {zones zones' : Map Zone} {clip : Rat → Rat} {ids : List Int} {v : Int}
    (h : ∀ i ∈ ids, zones.get i = zones'.get i) :
    outlines lib zones clip ids v = outlines lib zones' clip ids v := by
  unfold outlines
  induction ids with
  | nil => rfl
  | cons i ids ih =>
    rw [List.filterMap_cons, List.filterMap_cons, h i (by simp),
      ih fun j hj => h j (List.mem_cons_of_mem _ hj)]

/-- An environment depends only on the zones that the region names. -/
theorem buildEnv_congr {ins ins' outs outs' : Map Zone} {r : Region} {v : Int} {w : Option Poly}
    (h₁ : ∀ i ∈ r.ins, ins.get i = ins'.get i) (h₂ : ∀ i ∈ r.outs, outs.get i = outs'.get i) :
    buildEnv lib ins outs r v w = buildEnv lib ins' outs' r v w := by
  unfold buildEnv
  rw [outlines_congr lib h₁, outlines_congr lib h₂]

/-! ### Histories -/

theorem after_snoc (h : List Msg) (m : Msg) :
    St.after lib (h ++ [m]) = (St.after lib h).bind fun s => s.upd lib m := by
  unfold St.after
  rw [List.foldl_append]
  rfl

theorem upd_keepIn {s s' : St} {z : Zone} (e : s.upd lib (.keepIn z) = .ok s') :
    ∃ s₁, Alike s s₁ ∧ s' = { s₁ with ins := s₁.ins.put z.id z } ∧
      (s₁ = s ∨ ∃ y, s.ins.get z.id = some y ∧ y ≠ z) := by
  simp only [St.upd] at e
  cases k : s.ins.get z.id with
  | none => rw [k] at e; cases e; exact ⟨_, .refl _, rfl, .inl rfl⟩
  | some y =>
    rw [k] at e
    dsimp only at e
    by_cases hy : y = z
    · rw [if_pos hy] at e; cases e; exact ⟨_, .refl _, rfl, .inl rfl⟩
    · rw [if_neg hy] at e
      obtain ⟨s₁, h₁, e⟩ := Outcome.bind_eq_ok.mp e
      cases e
      exact ⟨_, rebuild_alike lib h₁, rfl, .inr ⟨y, rfl, hy⟩⟩

theorem upd_keepOut {s s' : St} {z : Zone} (e : s.upd lib (.keepOut z) = .ok s') :
    ∃ s₁, Alike s s₁ ∧ s' = { s₁ with outs := s₁.outs.put z.id z } ∧
      (s₁ = s ∨ ∃ y, s.outs.get z.id = some y ∧ y ≠ z) := by
  simp only [St.upd] at e
  cases k : s.outs.get z.id with
  | none => rw [k] at e; cases e; exact ⟨_, .refl _, rfl, .inl rfl⟩
  | some y =>
    rw [k] at e
    dsimp only at e
    by_cases hy : y = z
    · rw [if_pos hy] at e; cases e; exact ⟨_, .refl _, rfl, .inl rfl⟩
    · rw [if_neg hy] at e
      obtain ⟨s₁, h₁, e⟩ := Outcome.bind_eq_ok.mp e
      cases e
      exact ⟨_, rebuild_alike lib h₁, rfl, .inr ⟨y, rfl, hy⟩⟩

theorem upd_region {s s' : St} {r : Region} (e : s.upd lib (.region r) = .ok s') :
    (∃ q, s.regions.get r.id = some q ∧ q = r ∧ s' = s) ∨
    (∃ q, s.regions.get r.id = some q ∧ q ≠ r ∧ s.buildRegion lib r = .ok s') ∨
    (s.regions.get r.id = none ∧
      { s with regions := s.regions.put r.id r }.buildRegion lib r = .ok s') := by
  simp only [St.upd] at e
  cases k : s.regions.get r.id with
  | none => rw [k] at e; exact .inr (.inr ⟨rfl, e⟩)
  | some q =>
    rw [k] at e
    dsimp only at e
    by_cases hq : q = r
    · rw [if_pos hq] at e; cases e; exact .inl ⟨q, rfl, hq, rfl⟩
    · rw [if_neg hq] at e; exact .inr (.inl ⟨q, rfl, hq, e⟩)

end Verif.RoutePlanner
