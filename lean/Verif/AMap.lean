import Verif.Common

/-!
`std::unordered_map<int64_t, β>` as an association list.  The order of the list is not that of the C++ container,
which is not specified.
-/

namespace Verif

/-- `std::unordered_map<int64_t, β>`. -/
abbrev Map (β : Type) := List (Int × β)

/-- `m.find(k)`. -/
def Map.get (m : Map β) (k : Int) : Option β := (m.find? (·.1 == k)).map (·.2)

/-- `m.erase(k)`. -/
def Map.del (m : Map β) (k : Int) : Map β := m.filter (·.1 != k)

/-- `m[k] = v`. -/
def Map.put (m : Map β) (k : Int) (v : β) : Map β := (k, v) :: m.del k

section maps
variable {β : Type}

theorem Map.get_del (m : Map β) (k k' : Int) : (m.del k).get k' = if k' = k then none else m.get k' := by
  induction m with
  | nil => simp [Map.get, Map.del]
  | cons p m ih =>
    simp only [Map.get, Map.del] at ih ⊢
    rw [List.filter_cons]
    by_cases h : p.1 = k
    · simp only [h, bne_self_eq_false, Bool.false_eq_true, if_false, ih, List.find?_cons]
      by_cases hk : k' = k
      · simp [hk]
      · simp [hk, beq_eq_false_iff_ne.mpr fun hh : k = k' => hk hh.symm]
    · have : (p.1 != k) = true := by simpa using h
      simp only [this, if_true, List.find?_cons]
      by_cases hk : p.1 = k'
      · simp [hk, show k' ≠ k from hk ▸ h]
      · simp only [beq_eq_false_iff_ne.mpr hk, ih]

theorem Map.get_put (m : Map β) (k k' : Int) (v : β) : (m.put k v).get k' = if k' = k then some v else m.get k' := by
  simp only [Map.put]
  by_cases h : k' = k
  · simp [Map.get, h]
  · rw [show Map.get ((k, v) :: m.del k) k' = (m.del k).get k' from by
      simp [Map.get, List.find?_cons, beq_eq_false_iff_ne.mpr fun hh : k = k' => h hh.symm], Map.get_del, if_neg h, if_neg h]

theorem Map.nodup_del {m : Map β} (h : (m.map (·.1)).Nodup) (k : Int) : ((m.del k).map (·.1)).Nodup :=
  h.sublist (List.filter_sublist.map _)

theorem Map.nodup_put {m : Map β} (h : (m.map (·.1)).Nodup) (k : Int) (v : β) : ((m.put k v).map (·.1)).Nodup := by
  simp only [Map.put, List.map_cons, List.nodup_cons]
  refine ⟨?_, Map.nodup_del h k⟩
  simp [Map.del]

theorem Map.mem_iff_get {m : Map β} (h : (m.map (·.1)).Nodup) (k : Int) (v : β) : (k, v) ∈ m ↔ m.get k = some v := by
  induction m with
  | nil => simp [Map.get]
  | cons p m ih =>
    simp only [List.map_cons, List.nodup_cons] at h
    by_cases hk : p.1 = k
    · subst hk
      have : ∀ v, (p.1, v) ∉ m := fun v hv => h.1 (List.mem_map_of_mem (f := (·.1)) hv)
      simp [Map.get, this, Prod.ext_iff, eq_comm]
    · have : (k, v) ≠ p := fun hh => hk (by rw [← hh])
      simp [Map.get, List.find?_cons, beq_eq_false_iff_ne.mpr hk, this]
      simpa [Map.get] using ih h.2

end maps

theorem Map.length_del {β : Type} {m : Map β} (h : (m.map (·.1)).Nodup) {k : Int} {v : β} (hg : m.get k = some v)
    (P : β → Bool) :
    (m.filter fun p => P p.2).length = ((m.del k).filter fun p => P p.2).length + if P v then 1 else 0 := by
  induction m with
  | nil => simp [Map.get] at hg
  | cons p m ih =>
    simp only [List.map_cons, List.nodup_cons] at h
    by_cases hk : p.1 = k
    · have e : Map.del (p :: m) k = m := by
        simp only [Map.del, List.filter_cons, hk, bne_self_eq_false, Bool.false_eq_true, if_false]
        refine List.filter_eq_self.mpr fun q hq => ?_
        have : q.1 ≠ k := fun hh => h.1 (by rw [hk, ← hh]; exact List.mem_map_of_mem (f := (·.1)) hq)
        simpa using this
      have hv : p.2 = v := by simpa [Map.get, hk] using hg
      rw [e, List.filter_cons, hv]
      split <;> simp
    · have hg' : Map.get m k = some v := by
        simpa [Map.get, List.find?_cons, beq_eq_false_iff_ne.mpr hk] using hg
      have e : Map.del (p :: m) k = p :: Map.del m k := by
        simp [Map.del, List.filter_cons, hk]
      rw [e, List.filter_cons, List.filter_cons]
      have := ih h.2 hg'
      split <;> simp_all <;> omega

theorem Map.del_of_none {β : Type} {m : Map β} {k : Int} (hg : m.get k = none) : m.del k = m := by
  refine List.filter_eq_self.mpr fun q hq => ?_
  simp only [Map.get, Option.map_eq_none_iff, List.find?_eq_none] at hg
  simpa using hg q hq

theorem Map.get_isSome_iff {β : Type} {m : Map β} {k : Int} : (m.get k).isSome = true ↔ k ∈ m.map (·.1) := by
  simp only [Map.get, Option.isSome_map, List.find?_isSome, beq_iff_eq, List.mem_map]

end Verif
