import Verif.Options.Search

/-!
C100: cordon.
-/

namespace Verif.Options

open Verif Verif.Algebra

/-! ### The options and their numbers -/

theorem lookup_snoc {k k' : Int × Int} {i : Int} : ∀ {l : List ((Int × Int) × Int)},
    (l ++ [(k, i)]).lookup k' = match l.lookup k' with | some j => some j | none => if k' = k then some i else none
  | [] => by
    by_cases h : k' = k
    · subst h; simp [List.lookup]
    · simp [List.lookup, beq_false_of_ne h, h]
  | (k₀, i₀) :: l => by
    rw [List.cons_append]
    by_cases h : k' = k₀
    · subst h; simp [List.lookup]
    · simp only [List.lookup, beq_false_of_ne h]; exact lookup_snoc

/-- The options of one location. -/
def locOpts (vs : List Int) (place id : Int) : List Opt := numbered id (fun i v => { id := i, eligible := [v], place := place }) vs

theorem addAll_facts {loc place : Int} : ∀ {vs : List Int} {s : Cordon} {id : Int}, vs.Nodup →
    (∀ v ∈ vs, s.ids.lookup (v, loc) = none) →
    (s.addAll loc place id vs).2 = id + vs.length ∧
    (s.addAll loc place id vs).1.opts = s.opts ++ locOpts vs place id ∧
    (∀ v ∈ vs, (s.addAll loc place id vs).1.ids.lookup (v, loc) = some (id + vs.idxOf v)) ∧
    (∀ v l, (l ≠ loc ∨ v ∉ vs) → (s.addAll loc place id vs).1.ids.lookup (v, l) = s.ids.lookup (v, l))
  | [], s, id, _, _ => by simp [Cordon.addAll, locOpts, numbered]
  | u :: vs, s, id, hn, hf => by
    obtain ⟨hu, hn⟩ := List.nodup_cons.mp hn
    have hadd : (s.add u loc place id).ids = s.ids ++ [((u, loc), id)] := by
      simp [Cordon.add, hf u (by simp)]
    have hlook : ∀ v l, (s.add u loc place id).ids.lookup (v, l) =
        match s.ids.lookup (v, l) with | some j => some j | none => if (v, l) = (u, loc) then some id else none := by
      intro v l; rw [hadd]; exact lookup_snoc
    obtain ⟨h₁, h₂, h₃, h₄⟩ := addAll_facts (place := place) (s := s.add u loc place id) (id := id + 1) hn (by
      intro v hv
      rw [hlook, hf v (by simp [hv])]
      have : (v, loc) ≠ (u, loc) := by rintro e; cases e; exact hu hv
      simp [this])
    rw [Cordon.addAll]
    refine ⟨by rw [h₁]; simp; omega, by rw [h₂]; simp [Cordon.add, locOpts, numbered], ?_, ?_⟩
    · intro v hv
      by_cases e : v = u
      · subst e
        rw [h₄ v loc (.inr hu), hlook, hf v (by simp)]
        simp
      · have hv' : v ∈ vs := by simpa [e] using hv
        rw [h₃ v hv', List.idxOf_cons, beq_false_of_ne (Ne.symm e)]
        simp only [cond_false, Option.some.injEq]
        omega
    · intro v l h
      have e : (v, l) ≠ (u, loc) := by
        rintro e; cases e
        rcases h with h | h
        · exact h rfl
        · exact h (by simp)
      rw [h₄ v l (h.imp (fun h => h) fun h h' => h (by simp [h'])), hlook]
      simp only [e, if_false]
      cases s.ids.lookup (v, l) <;> rfl

/-- The options of all locations. -/
def allOpts (vs : List Int) : Int → List Int → List Opt
  | _, [] => []
  | id, p :: ps => locOpts vs p id ++ allOpts vs (id + vs.length) ps

/-- The number of the option of a vehicle for a location (from 0). -/
def optNum (vs : List Int) (id : Int) (v : Int) (k : Nat) : Int := id + k * vs.length + vs.idxOf v

theorem locations_facts {vs : List Int} (hn : vs.Nodup) : ∀ {ps : List Int} {s : Cordon} {loc id : Int},
    (∀ v l, loc ≤ l → s.ids.lookup (v, l) = none) →
    (s.locations vs loc id ps).opts = s.opts ++ allOpts vs id ps ∧
    (∀ v ∈ vs, ∀ k : Nat, k < ps.length → (s.locations vs loc id ps).ids.lookup (v, loc + k) = some (optNum vs id v k)) ∧
    (∀ v l, l < loc → (s.locations vs loc id ps).ids.lookup (v, l) = s.ids.lookup (v, l))
  | [], s, loc, id, _ => by simp [Cordon.locations, allOpts]
  | p :: ps, s, loc, id, hf => by
    obtain ⟨a₁, a₂, a₃, a₄⟩ := addAll_facts (place := p) (s := s) (id := id) hn (fun v _ => hf v loc (by omega))
    obtain ⟨h₁, h₂, h₃⟩ := locations_facts hn (ps := ps) (s := (s.addAll loc p id vs).1) (loc := loc + 1)
      (id := (s.addAll loc p id vs).2) (by
        intro v l hl
        rw [a₄ v l (.inl (by omega)), hf v l (by omega)])
    rw [Cordon.locations]
    refine ⟨by rw [h₁, a₂, a₁]; simp [allOpts], ?_, ?_⟩
    · intro v hv k hk
      cases k with
      | zero =>
        have := h₃ v loc (by omega)
        simp only [Int.ofNat_zero, Int.add_zero]
        rw [this, a₃ v hv]
        simp [optNum]
      | succ k =>
        have := h₂ v hv k (by simpa using hk)
        rw [show loc + ((k + 1 : Nat) : Int) = loc + 1 + (k : Int) from by omega, this, a₁]
        simp only [optNum, Option.some.injEq]
        rw [Int.natCast_add, Int.add_mul]
        omega
    · intro v l hl
      rw [h₃ v l (by omega), a₄ v l (.inl (by omega))]

theorem allOpts_ids {vs : List Int} : ∀ {ps : List Int} {id : Int},
    ((allOpts vs id ps).map (·.id)).Nodup ∧ ∀ o ∈ allOpts vs id ps, id ≤ o.id
  | [], id => by simp [allOpts]
  | p :: ps, id => by
    obtain ⟨h₁, h₂⟩ := allOpts_ids (vs := vs) (ps := ps) (id := id + vs.length)
    rw [allOpts]
    refine ⟨?_, ?_⟩
    · rw [List.map_append]
      refine List.nodup_append.mpr ⟨numbered_nodup (fun _ _ => rfl) _ _, h₁, ?_⟩
      intro a ha b hb e
      obtain ⟨o, ho, rfl⟩ := List.mem_map.mp ha
      obtain ⟨o', ho', rfl⟩ := List.mem_map.mp hb
      obtain ⟨v, -, i, i₁, i₂, rfl⟩ := mem_numbered ho
      have := h₂ o' ho'
      simp only at e
      omega
    · intro o ho
      rcases List.mem_append.mp ho with ho | ho
      · obtain ⟨v, -, i, i₁, i₂, rfl⟩ := mem_numbered ho
        exact i₁
      · have := h₂ o ho; omega

theorem locOpts_mem {place v : Int} : ∀ {vs : List Int} {id : Int}, v ∈ vs →
    ({ id := id + vs.idxOf v, eligible := [v], place := place } : Opt) ∈ locOpts vs place id
  | [], _, h => by simp at h
  | u :: vs, id, h => by
    by_cases e : v = u
    · subst e; simp [locOpts, numbered]
    · have := locOpts_mem (place := place) (vs := vs) (id := id + 1) (by simpa [e] using h)
      rw [List.idxOf_cons, beq_false_of_ne (Ne.symm e)]
      simp only [cond_false, locOpts, numbered]
      refine List.mem_cons_of_mem _ ?_
      rw [show id + ((vs.idxOf v + 1 : Nat) : Int) = id + 1 + (vs.idxOf v : Int) from by omega]
      exact this

theorem allOpts_mem {vs : List Int} {v : Int} (hv : v ∈ vs) : ∀ {ps : List Int} {id : Int} {k : Nat} {p : Int}, ps[k]? = some p →
    ({ id := optNum vs id v k, eligible := [v], place := p } : Opt) ∈ allOpts vs id ps
  | [], _, _, _, h => by simp at h
  | q :: ps, id, k, p, h => by
    rw [allOpts]
    cases k with
    | zero =>
      simp only [List.getElem?_cons_zero, Option.some.injEq] at h
      subst h
      refine List.mem_append.mpr (.inl ?_)
      simpa [optNum] using locOpts_mem (place := q) (id := id) hv
    | succ k =>
      have := allOpts_mem hv (ps := ps) (id := id + vs.length) (k := k) (p := p) (by simpa using h)
      refine List.mem_append.mpr (.inr ?_)
      have e : optNum vs id v (k + 1) = optNum vs (id + vs.length) v k := by
        simp only [optNum]; rw [Int.natCast_add, Int.add_mul]; omega
      rw [e]; exact this

theorem mem_allOpts {vs : List Int} {o : Opt} : ∀ {ps : List Int} {id : Int}, o ∈ allOpts vs id ps →
    ∃ v ∈ vs, ∃ p ∈ ps, o.eligible = [v] ∧ o.place = p
  | [], _, h => by simp [allOpts] at h
  | p :: ps, id, h => by
    rw [allOpts] at h
    rcases List.mem_append.mp h with h | h
    · obtain ⟨v, hv, i, -, -, rfl⟩ := mem_numbered h
      exact ⟨v, hv, p, by simp, rfl, rfl⟩
    · obtain ⟨v, hv, q, hq, h⟩ := mem_allOpts h
      exact ⟨v, hv, q, by simp [hq], h⟩

/-! ### The text -/

theorem objectivesL_seqs : ∀ blocks : List (List Int),
    objectivesL (blocks.map fun b => .op .seq (b.map .action)) = blocks.flatten
  | [] => rfl
  | b :: bs => by simp [objectivesL, objectives_actions, objectivesL_seqs bs]

/-- Alternatives of sequences. -/
theorem means_seqs {blocks : List (List Int)} {s : Str}
    (h : WrittenBody (blocks.map fun b => .op .seq (b.map .action)) s) :
    Means ('+' :: '(' :: (s ++ [')'])) blocks.flatten (fun w => w ∈ blocks) := by
  refine ⟨_, _, [], by simp [opText], blanks_nil, written_op .alt h, ⟨_, _, rfl⟩, ?_, fun w => ?_⟩
  · intro a
    rw [objectives, objectivesL_seqs]
  · rw [word_alt]
    constructor
    · rintro ⟨c, hc, hw⟩
      obtain ⟨b, hb, rfl⟩ := List.mem_map.mp hc
      rw [word_seq_actions.mp hw]; exact hb
    · intro hw
      exact ⟨_, List.mem_map.mpr ⟨w, hw, rfl⟩, word_seq_actions.mpr rfl⟩

theorem seqs_body : ∀ (blocks : List (List Int)),
    WrittenBody (blocks.map fun b => .op .seq (b.map .action))
      ((blocks.map fun b => ' ' :: '.' :: '(' :: (refs b ++ [')'])).flatten)
  | [] => by simpa using body_nil
  | b :: bs => by
    have h₁ := written_op .seq (by simpa using body_refs body_nil b)
    have := body_blank (body_op h₁ (seqs_body bs))
    simpa [opText] using this

theorem filterMap_eq {ids : List ((Int × Int) × Int)} {num : Int × Int → Int} : ∀ {ps : List (Int × Int)},
    (∀ p ∈ ps, ids.lookup p = some (num p)) → ps.filterMap (fun p => ids.lookup p) = ps.map num
  | [], _ => rfl
  | p :: ps, h => by
    rw [List.filterMap_cons, h p (by simp), filterMap_eq fun q hq => h q (by simp [hq])]; rfl

theorem locIds_eq (n : Nat) : locIds n = (List.range n).map fun (i : Nat) => (i : Int) + 1 := rfl

theorem mem_locIds {n : Nat} {x : Int} : x ∈ locIds n ↔ ∃ k : Nat, k < n ∧ x = k + 1 := by
  simp only [locIds, List.mem_map, List.mem_range]
  constructor
  · rintro ⟨k, hk, rfl⟩; exact ⟨k, hk, rfl⟩
  · rintro ⟨k, hk, rfl⟩; exact ⟨k, hk, rfl⟩

theorem nodup_locIds (n : Nat) : (locIds n).Nodup :=
  Verif.Permute.nodup_map (fun a b h => by omega) List.nodup_range

/-- An assignment of vehicles to locations (numbered from 0): as many as there can be, no vehicle and no location twice. -/
structure Assignment (entities : List Int) (n : Nat) (as : List (Int × Nat)) : Prop where
  size : as.length = min entities.length n
  vehicles : (as.map (·.1)).Nodup
  locations : (as.map (·.2)).Nodup
  listed : ∀ a ∈ as, a.1 ∈ entities ∧ a.2 < n

theorem zip_fst : ∀ {l : List α} {r : List β}, l.length ≤ r.length → (l.zip r).map (·.1) = l
  | [], _, _ => rfl
  | a :: l, [], h => by simp at h
  | a :: l, b :: r, h => by
    rw [List.zip_cons_cons, List.map_cons, zip_fst (by simpa using h)]

theorem zip_snd : ∀ {l : List α} {r : List β}, r.length ≤ l.length → (l.zip r).map (·.2) = r
  | _, [], _ => by simp
  | [], b :: r, h => by simp at h
  | a :: l, b :: r, h => by
    rw [List.zip_cons_cons, List.map_cons, zip_snd (by simpa using h)]

theorem zip_self : ∀ as : List (α × β), (as.map (·.1)).zip (as.map (·.2)) = as
  | [] => rfl
  | a :: as => by simp [zip_self as]

/-- The calls and the assignments. -/
theorem cordonText_eq {ids : List ((Int × Int) × Int)} {entities : List Int} {n : Nat} {num : Int → Nat → Int}
    (he : entities.Nodup) (hne : entities ≠ []) (hn : 0 < n)
    (hids : ∀ v ∈ entities, ∀ k : Nat, k < n → ids.lookup (v, (k : Int) + 1) = some (num v k)) :
    ∃ blocks : List (List (Int × Nat)),
      cordonText ids (locIds n) entities =
        '+' :: '(' :: (((blocks.map fun as => as.map fun a => num a.1 a.2).map fun b => ' ' :: '.' :: '(' :: (refs b ++ [')'])).flatten ++ [')']) ∧
      blocks.Nodup ∧
      ∀ as, as ∈ blocks ↔ Assignment entities n as ∧
        if entities.length > n then as.map (·.2) = List.range n else as.map (·.1) = entities := by
  have hlen : (locIds n).length = n := by simp [locIds]
  have hep : 0 < entities.length := List.length_pos_iff.mpr hne
  have hcall : ∀ as : List (Int × Nat), as ≠ [] → (∀ a ∈ as, a.1 ∈ entities ∧ a.2 < n) →
      cordonCall ids (as.map fun a => (a.1, (a.2 : Int) + 1)) =
        ' ' :: '.' :: '(' :: (refs (as.map fun a => num a.1 a.2) ++ [')']) := by
    intro as has h
    have h₁ : (as.map fun a => (a.1, (a.2 : Int) + 1)).isEmpty = false := by
      cases as
      · exact absurd rfl has
      · rfl
    have h₂ : (as.map fun a => (a.1, (a.2 : Int) + 1)).filterMap (fun p => ids.lookup p) = as.map fun a => num a.1 a.2 := by
      rw [filterMap_eq (num := fun p => num p.1 (p.2 - 1).toNat)]
      · rw [List.map_map]
        apply List.map_congr_left
        intro a ha
        simp only [Function.comp]
        congr 1
        omega
      · intro p hp
        obtain ⟨a, ha, rfl⟩ := List.mem_map.mp hp
        obtain ⟨h₁, h₂⟩ := h a ha
        rw [hids a.1 h₁ a.2 h₂]
        simp only [Option.some.injEq]
        congr 1
        omega
    unfold cordonCall
    rw [h₁, h₂]
    rfl
  unfold cordonText
  rw [hlen]
  by_cases hc : entities.length > n
  · obtain ⟨ws, h₁, h₂, h₃⟩ := Verif.Permute.C91_once (fun w => cordonCall ids (w.zip (locIds n))) (l := entities) (d := n)
      (by omega) he
    have hws : ∀ w ∈ ws, (w.zip (List.range n)).map (·.1) = w ∧ (w.zip (List.range n)).map (·.2) = List.range n := by
      intro w hw
      have := ((h₃ w).mp hw).2.1
      exact ⟨zip_fst (by simp; omega), zip_snd (by simp; omega)⟩
    have hlist : ∀ w ∈ ws, ∀ a ∈ w.zip (List.range n), a.1 ∈ entities ∧ a.2 < n := by
      intro w hw a ha
      have := List.of_mem_zip (a := a.1) (b := a.2) ha
      exact ⟨((h₃ w).mp hw).2.2 _ this.1, by simpa using this.2⟩
    refine ⟨ws.map fun w => w.zip (List.range n), ?_, ?_, ?_⟩
    · simp only [if_pos hc, h₁]
      congr 4
      rw [List.map_map, List.map_map]
      apply List.map_congr_left
      intro w hw
      simp only [Function.comp]
      rw [← hcall _ (by
        intro e
        have h₄ := congrArg List.length e
        have h₅ := ((h₃ w).mp hw).2.1
        simp only [List.length_zip, List.length_map, List.length_range, List.length_nil] at h₄
        omega) (hlist w hw)]
      congr 1
      rw [locIds, List.zip_map_right]
      apply List.map_congr_left
      intro a _; rfl
    · rw [List.nodup_iff_pairwise_ne, List.pairwise_map]
      refine (List.nodup_iff_pairwise_ne.mp h₂).imp_of_mem ?_
      intro a b ha hb hne e
      apply hne
      rw [← (hws a ha).1, ← (hws b hb).1, e]
    · intro as
      rw [if_pos hc]
      constructor
      · intro h
        obtain ⟨w, hw, rfl⟩ := List.mem_map.mp h
        obtain ⟨k₁, k₂, k₃⟩ := (h₃ w).mp hw
        refine ⟨⟨by simp; omega, by rw [(hws w hw).1]; exact k₁, by rw [(hws w hw).2]; exact List.nodup_range, hlist w hw⟩, (hws w hw).2⟩
      · rintro ⟨⟨a₁, a₂, a₃, a₄⟩, e⟩
        refine List.mem_map.mpr ⟨as.map (·.1), (h₃ _).mpr ⟨a₂, by simp; omega, ?_⟩, by rw [← e]; exact zip_self as⟩
        intro x hx
        obtain ⟨a, ha, rfl⟩ := List.mem_map.mp hx
        exact (a₄ a ha).1
  · obtain ⟨ws, h₁, h₂, h₃⟩ := Verif.Permute.C91_once (fun w => cordonCall ids (entities.zip w)) (l := locIds n) (d := entities.length)
      (by omega) (nodup_locIds n)
    have hback : ∀ w ∈ ws, (w.map fun x => (x - 1).toNat).map (fun (k : Nat) => (k : Int) + 1) = w := by
      intro w hw
      rw [List.map_map]
      conv => rhs; rw [← List.map_id w]
      apply List.map_congr_left
      intro x hx
      obtain ⟨k, hk, rfl⟩ := mem_locIds.mp (((h₃ w).mp hw).2.2 x hx)
      simp only [Function.comp, id]
      omega
    have hws : ∀ w ∈ ws, (entities.zip (w.map fun x => (x - 1).toNat)).map (·.1) = entities ∧
        (entities.zip (w.map fun x => (x - 1).toNat)).map (·.2) = w.map fun x => (x - 1).toNat := by
      intro w hw
      have := ((h₃ w).mp hw).2.1
      exact ⟨zip_fst (by simp; omega), zip_snd (by simp; omega)⟩
    have hlist : ∀ w ∈ ws, ∀ a ∈ entities.zip (w.map fun x => (x - 1).toNat), a.1 ∈ entities ∧ a.2 < n := by
      intro w hw a ha
      have := List.of_mem_zip (a := a.1) (b := a.2) ha
      refine ⟨this.1, ?_⟩
      obtain ⟨x, hx, e⟩ := List.mem_map.mp this.2
      obtain ⟨k, hk, rfl⟩ := mem_locIds.mp (((h₃ w).mp hw).2.2 x hx)
      omega
    refine ⟨ws.map fun w => entities.zip (w.map fun x => (x - 1).toNat), ?_, ?_, ?_⟩
    · simp only [if_neg hc, h₁]
      congr 4
      rw [List.map_map, List.map_map]
      apply List.map_congr_left
      intro w hw
      simp only [Function.comp]
      rw [← hcall _ (by
        intro e
        have h₄ := congrArg List.length e
        have h₅ := ((h₃ w).mp hw).2.1
        simp only [List.length_zip, List.length_map, List.length_range, List.length_nil] at h₄
        omega) (hlist w hw)]
      congr 1
      conv => lhs; rw [← hback w hw, List.zip_map_right]
      apply List.map_congr_left
      intro a _; rfl
    · rw [List.nodup_iff_pairwise_ne, List.pairwise_map]
      refine (List.nodup_iff_pairwise_ne.mp h₂).imp_of_mem ?_
      intro a b ha hb hne e
      apply hne
      have : a.map (fun x => (x - 1).toNat) = b.map fun x => (x - 1).toNat := by rw [← (hws a ha).2, ← (hws b hb).2, e]
      rw [← hback a ha, ← hback b hb, this]
    · intro as
      rw [if_neg hc]
      constructor
      · intro h
        obtain ⟨w, hw, rfl⟩ := List.mem_map.mp h
        obtain ⟨k₁, k₂, k₃⟩ := (h₃ w).mp hw
        refine ⟨⟨by simp; omega, by rw [(hws w hw).1]; exact he, ?_, hlist w hw⟩, (hws w hw).1⟩
        rw [(hws w hw).2, List.nodup_iff_pairwise_ne, List.pairwise_map]
        refine (List.nodup_iff_pairwise_ne.mp k₁).imp_of_mem ?_
        intro x y hx hy hxy e
        obtain ⟨k, hk, rfl⟩ := mem_locIds.mp (k₃ x hx)
        obtain ⟨k', hk', rfl⟩ := mem_locIds.mp (k₃ y hy)
        apply hxy
        omega
      · rintro ⟨⟨a₁, a₂, a₃, a₄⟩, e⟩
        refine List.mem_map.mpr ⟨(as.map (·.2)).map fun (k : Nat) => (k : Int) + 1, (h₃ _).mpr ⟨?_, by simp; omega, ?_⟩, ?_⟩
        · exact Verif.Permute.nodup_map (fun a b h => by omega) a₃
        · intro x hx
          obtain ⟨k, hk, rfl⟩ := List.mem_map.mp hx
          obtain ⟨a, ha, rfl⟩ := List.mem_map.mp hk
          exact mem_locIds.mpr ⟨a.2, (a₄ a ha).2, rfl⟩
        · have : ((as.map (·.2)).map fun (k : Nat) => (k : Int) + 1).map (fun x => (x - 1).toNat) = as.map (·.2) := by
            rw [List.map_map]
            conv => rhs; rw [← List.map_id (as.map (·.2))]
            apply List.map_congr_left
            intro k _
            simp only [Function.comp, id]
            omega
          rw [this, ← e]; exact zip_self as

/-- Every vehicle and location are in some assignment together. -/
theorem assignment_through {entities : List Int} {n : Nat} {v : Int} {k : Nat} (he : entities.Nodup) (hv : v ∈ entities) (hk : k < n) :
    ∃ as, (Assignment entities n as ∧
      if entities.length > n then as.map (·.2) = List.range n else as.map (·.1) = entities) ∧ (v, k) ∈ as := by
  have extend : ∀ {α : Type} [DecidableEq α] (l : List α) (x : α) (j d : Nat), l.Nodup → x ∈ l → j < d → d ≤ l.length →
      ∃ u : List α, u.Nodup ∧ u.length = d ∧ (∀ y ∈ u, y ∈ l) ∧ u[j]? = some x := by
    intro α _ l x j d hl hx hj hd
    have h₁ : (l.erase x).Nodup := hl.erase x
    have h₂ : (l.erase x).length = l.length - 1 := List.length_erase_of_mem hx
    have h₃ : x ∉ l.erase x := fun h => (List.Nodup.mem_erase_iff hl).mp h |>.1 rfl
    have hsub : ((l.erase x).take (d - 1)).Sublist (l.erase x) := List.take_sublist _ _
    refine ⟨((l.erase x).take (d - 1)).take j ++ x :: ((l.erase x).take (d - 1)).drop j, ?_, ?_, ?_, ?_⟩
    · have hp : (((l.erase x).take (d - 1)).take j ++ x :: ((l.erase x).take (d - 1)).drop j).Perm (x :: (l.erase x).take (d - 1)) := by
        refine List.perm_middle.trans (List.Perm.cons x ?_)
        rw [List.take_append_drop]
      rw [hp.nodup_iff]
      exact List.nodup_cons.mpr ⟨fun h => h₃ (hsub.subset h), h₁.sublist hsub⟩
    · simp; omega
    · intro y hy
      rcases List.mem_append.mp hy with hy | hy
      · exact List.mem_of_mem_erase (hsub.subset (List.mem_of_mem_take hy))
      · rcases List.mem_cons.mp hy with rfl | hy
        · exact hx
        · exact List.mem_of_mem_erase (hsub.subset (List.mem_of_mem_drop hy))
    · rw [List.getElem?_append_right (by simp; omega)]
      have : j - (((l.erase x).take (d - 1)).take j).length = 0 := by simp; omega
      rw [this]; rfl
  by_cases hc : entities.length > n
  · obtain ⟨u, u₁, u₂, u₃, u₄⟩ := extend entities v k n he hv hk (by omega)
    have e₁ : (u.zip (List.range n)).map (·.1) = u := zip_fst (by simp; omega)
    have e₂ : (u.zip (List.range n)).map (·.2) = List.range n := zip_snd (by simp; omega)
    refine ⟨u.zip (List.range n), ⟨⟨by simp; omega, by rw [e₁]; exact u₁, by rw [e₂]; exact List.nodup_range, ?_⟩, by rw [if_pos hc]; exact e₂⟩, ?_⟩
    · intro a ha
      have := List.of_mem_zip (a := a.1) (b := a.2) ha
      exact ⟨u₃ _ this.1, by simpa using this.2⟩
    · refine List.mem_of_getElem? (i := k) ?_
      rw [List.getElem?_zip_eq_some]
      exact ⟨u₄, by simp [hk]⟩
  · obtain ⟨j, hj, e⟩ := List.getElem_of_mem hv
    obtain ⟨u, u₁, u₂, u₃, u₄⟩ := extend (List.range n) k j entities.length List.nodup_range (by simpa using hk) hj (by simp; omega)
    have e₁ : (entities.zip u).map (·.1) = entities := zip_fst (by omega)
    have e₂ : (entities.zip u).map (·.2) = u := zip_snd (by omega)
    refine ⟨entities.zip u, ⟨⟨by simp; omega, by rw [e₁]; exact he, by rw [e₂]; exact u₁, ?_⟩, by rw [if_neg hc]; exact e₁⟩, ?_⟩
    · intro a ha
      have := List.of_mem_zip (a := a.1) (b := a.2) ha
      exact ⟨this.1, by simpa using u₃ _ this.2⟩
    · refine List.mem_of_getElem? (i := j) ?_
      rw [List.getElem?_zip_eq_some]
      exact ⟨by rw [List.getElem?_eq_getElem hj, e], u₄⟩

/-- **C100, cordon**, for the first request, when the request lists vehicles, all of them eligible: there is one option for each
vehicle and location, and the allowed orders are the assignments of as many different vehicles to different locations as there
can be, in the order of the shorter list. -/
theorem C100_partial (g : Groups) (entities places : List Int) (hg : (vehicles g).Nodup) (he : entities.Nodup)
    (hne : entities ≠ []) (hp : places ≠ []) (hel : ∀ v ∈ entities, v ∈ vehicles g) :
    ∃ num : Int → Nat → Int,
      let p := (({} : Cordon).response g entities places).2
      (p.opts.map (·.id)).Nodup ∧
      (∀ v ∈ vehicles g, ∀ k place, places[k]? = some place →
        ({ id := num v k, eligible := [v], place := place } : Opt) ∈ p.opts) ∧
      (∀ o ∈ p.opts, ∃ v ∈ vehicles g, ∃ place ∈ places, o.eligible = [v] ∧ o.place = place) ∧
      Means p.composition ((entities.flatMap fun v => (List.range places.length).map fun k => num v k))
        (fun w => ∃ as, Assignment entities places.length as ∧
          (if entities.length > places.length then as.map (·.2) = List.range places.length else as.map (·.1) = entities) ∧
          w = as.map fun a => num a.1 a.2) := by
  obtain ⟨h₁, h₂, -⟩ := locations_facts hg (ps := places) (s := {}) (loc := 1) (id := firstId) (by intro v l _; rfl)
  have hpos : 0 < places.length := List.length_pos_iff.mpr hp
  have hep : 0 < entities.length := List.length_pos_iff.mpr hne
  refine ⟨optNum (vehicles g) firstId, ?_, ?_, ?_, ?_⟩
  · show ((({} : Cordon).locations (vehicles g) 1 firstId places).opts.map (·.id)).Nodup
    rw [h₁]
    simpa using allOpts_ids.1
  · intro v hv k place hk
    show _ ∈ (({} : Cordon).locations (vehicles g) 1 firstId places).opts
    rw [h₁]
    simpa using allOpts_mem hv hk
  · intro o ho
    have ho : o ∈ (({} : Cordon).locations (vehicles g) 1 firstId places).opts := ho
    rw [h₁] at ho
    exact mem_allOpts (by simpa using ho)
  · obtain ⟨blocks, b₁, -, b₃⟩ := cordonText_eq (ids := (({} : Cordon).locations (vehicles g) 1 firstId places).ids)
      (num := optNum (vehicles g) firstId) he hne hpos (by
        intro v hv k hk
        have := h₂ v (hel v hv) k hk
        rw [Int.add_comm] at this
        exact this)
    have hm := means_seqs (seqs_body (blocks.map fun as => as.map fun a => optNum (vehicles g) firstId a.1 a.2))
    show Means (cordonText (({} : Cordon).locations (vehicles g) 1 firstId places).ids (locIds places.length) entities) _ _
    rw [b₁]
    refine hm.congr ?_ ?_
    · intro i
      constructor
      · intro hi
        obtain ⟨b, hb, hi⟩ := List.mem_flatten.mp hi
        obtain ⟨as, has, rfl⟩ := List.mem_map.mp hb
        obtain ⟨a, ha, rfl⟩ := List.mem_map.mp hi
        obtain ⟨k₁, k₂⟩ := ((b₃ as).mp has).1.listed a ha
        exact List.mem_flatMap.mpr ⟨a.1, k₁, List.mem_map.mpr ⟨a.2, by simpa using k₂, rfl⟩⟩
      · intro hi
        obtain ⟨v, hv, hi⟩ := List.mem_flatMap.mp hi
        obtain ⟨k, hk, rfl⟩ := List.mem_map.mp hi
        have hk : k < places.length := by simpa using hk
        obtain ⟨as, has, hmem⟩ := assignment_through he hv hk
        exact List.mem_flatten.mpr ⟨_, List.mem_map.mpr ⟨as, (b₃ as).mpr has, rfl⟩, List.mem_map.mpr ⟨(v, k), hmem, rfl⟩⟩
    · intro w
      constructor
      · intro hw
        obtain ⟨as, has, rfl⟩ := List.mem_map.mp hw
        obtain ⟨k₁, k₂⟩ := (b₃ as).mp has
        exact ⟨as, k₁, k₂, rfl⟩
      · rintro ⟨as, k₁, k₂, rfl⟩
        exact List.mem_map.mpr ⟨as, (b₃ as).mpr ⟨k₁, k₂⟩, rfl⟩

example : (vehicles [((200, 700), [400, 500]), ((150, 700), [600])]).Nodup ∧ [600, 400].Nodup ∧
    (∀ v ∈ [600, 400], v ∈ vehicles [((200, 700), [400, 500]), ((150, 700), [600])]) ∧
    (({} : Cordon).response [((200, 700), [400, 500]), ((150, 700), [600])] [600, 400] [7, 8]).2.composition =
      "+( .(p12 p13 ) .(p15 p10 ))".toList := by decide +kernel

/-- **C100 is violated** by the second request: the numbers of the first are kept, so the composition refers to options that
belong to other vehicles.  The first request has vehicles 400 and 500, the second only 500, whose option is 10; the composition
says 11. -/
theorem C100_violated_second :
    let s := (({} : Cordon).response [((200, 700), [400, 500])] [400, 500] [7]).1.newRequest
    (s.response [((200, 700), [500])] [500] [7]).2 = ⟨"+( .(p11 ))".toList, [{ id := 10, eligible := [500], place := 7 }]⟩ := by
  decide +kernel

/-- **C100 is violated** by a request that lists no vehicles, which means all: nothing is allowed, though there are options. -/
theorem C100_violated_all :
    (({} : Cordon).response [((200, 700), [400, 500])] [] [7]).2.composition = "+()".toList ∧
    (({} : Cordon).response [((200, 700), [400, 500])] [] [7]).2.opts.map (·.eligible) = [[400], [500]] := by
  decide +kernel

/-- **C100 is violated** by a request with a vehicle that is not eligible for the task (here 900): it is assigned to locations
all the same, which then stay uncovered though vehicle 500 is free. -/
theorem C100_violated_ineligible :
    (({} : Cordon).response [((200, 700), [400, 500])] [900, 400, 500] [7, 8]).2.composition =
      "+( .(p12 ) .(p10 ) .(p13 ) .(p11 ) .(p10 p13 ) .(p11 p12 ))".toList := by
  decide +kernel

/-- **C100 is violated** by a second egress response for the same request: the options are published twice with the same
numbers. -/
theorem C100_violated_again :
    let s := (({} : Cordon).response [((200, 700), [400])] [400] [7]).1
    (s.response [((200, 700), [400])] [400] [8]).2.opts =
      [{ id := 10, eligible := [400], place := 7 }, { id := 10, eligible := [400], place := 8 }] := by
  decide +kernel

end Verif.Options
