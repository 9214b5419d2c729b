/-
The lines along roads that are given for road points requests.
-/
import Verif.Roads.Points

namespace Verif.Roads

/-! ### Points of one piece, in general -/

section
variable {start stop : Id} {R : Id → Id → Prop}

theorem segLoop_chain {extra : Bool} : ∀ (xs : List Id) (f : Bool) (last : Id) (acc : List Id),
    (last :: xs).IsChain (fun x y => x = y ∨ R x y) → acc.IsChain (fun x y => x = y ∨ R x y) →
    (∀ z ∈ acc.getLast?, z = last ∨ (extra = true ∧ R z last)) →
    (segLoop extra start stop f xs last acc).1.IsChain (fun x y => x = y ∨ R x y) ∧
      (∀ z ∈ (segLoop extra start stop f xs last acc).1, z ∈ acc ∨ z ∈ last :: xs) ∧
      ∀ l ∈ (segLoop extra start stop f xs last acc).2, l ∈ last :: xs ∧
        ∀ z ∈ (segLoop extra start stop f xs last acc).1.getLast?, z = l ∨ R z l
  | [], f, last, acc, _, h₂, h₃ => by
    rw [segLoop]
    refine ⟨h₂, fun z hz => .inl hz, fun l hl => ?_⟩
    cases hl
    exact ⟨by simp, fun z hz => (h₃ z hz).imp id fun h => h.2⟩
  | x :: xs, f, last, acc, h₁, h₂, h₃ => by
    rw [segLoop]
    have hx : last = x ∨ R last x := by
      rw [List.isChain_cons_cons] at h₁; exact h₁.1
    have hxs : (x :: xs).IsChain (fun x y => x = y ∨ R x y) := by
      rw [List.isChain_cons_cons] at h₁; exact h₁.2
    -- one more point
    have push : (acc ++ [if extra then last else x]).IsChain (fun x y => x = y ∨ R x y) ∧
        ∀ z ∈ (acc ++ [if extra then last else x]).getLast?, z = x ∨ (extra = true ∧ R z x) := by
      refine ⟨?_, ?_⟩
      · rw [List.isChain_append]
        refine ⟨h₂, List.isChain_singleton _, fun z hz w hw => ?_⟩
        cases hw
        cases extra with
        | true => rw [if_pos rfl]; exact (h₃ z hz).imp id fun h => h.2
        | false =>
          rw [if_neg (by simp)]
          rcases h₃ z hz with rfl | ⟨h, -⟩
          · exact hx
          · cases h
      · intro z hz
        rw [List.getLast?_append] at hz
        cases hz
        cases extra with
        | true =>
          rw [if_pos rfl]
          exact hx.imp id fun h => ⟨rfl, h⟩
        | false => exact .inl rfl
    have mem : (if extra then last else x) ∈ last :: x :: xs := by
      split <;> simp
    have go : ∀ acc' : List Id, acc'.IsChain (fun x y => x = y ∨ R x y) →
        (∀ z ∈ acc'.getLast?, z = x ∨ (extra = true ∧ R z x)) →
        (∀ z ∈ acc', z ∈ acc ∨ z ∈ last :: x :: xs) →
        (segLoop extra start stop false xs x acc').1.IsChain (fun x y => x = y ∨ R x y) ∧
        (∀ z ∈ (segLoop extra start stop false xs x acc').1, z ∈ acc ∨ z ∈ last :: x :: xs) ∧
        ∀ l ∈ (segLoop extra start stop false xs x acc').2, l ∈ last :: x :: xs ∧
          ∀ z ∈ (segLoop extra start stop false xs x acc').1.getLast?, z = l ∨ R z l := by
      intro acc' g₁ g₂ g₃
      obtain ⟨i₁, i₂, i₃⟩ := segLoop_chain xs false x acc' hxs g₁ g₂
      refine ⟨i₁, fun z hz => ?_, fun l hl => ?_⟩
      · rcases i₂ z hz with h | h
        · exact g₃ z h
        · exact .inr (List.mem_cons_of_mem _ h)
      · exact ⟨List.mem_cons_of_mem _ (i₃ l hl).1, (i₃ l hl).2⟩
    have pm : ∀ z ∈ acc ++ [if extra then last else x], z ∈ acc ∨ z ∈ last :: x :: xs := by
      intro z hz
      rcases List.mem_append.mp hz with h | h
      · exact .inl h
      · rw [List.mem_singleton.mp h]; exact .inr mem
    by_cases hc : (start ≤ 0 ∧ f = true) ∨ x = start
    · rw [if_pos hc]
      exact go _ push.1 push.2 pm
    · rw [if_neg hc]
      by_cases hc' : 0 < stop ∧ (if extra then last else x) = stop
      · rw [if_pos hc']
        refine ⟨?_, ?_, fun l hl => by cases hl⟩
        · show List.IsChain _ (if acc = [] then acc else _)
          by_cases he : acc = []
          · rw [if_pos he]; exact h₂
          · rw [if_neg he]
            cases extra with
            | true => exact push.1
            | false =>
              have := push.1
              rw [if_neg (by simp)] at this ⊢
              rw [if_neg (by simp)]
              have e : acc ++ [x, x] = (acc ++ [x]) ++ [x] := by simp
              rw [e, List.isChain_append]
              refine ⟨this, List.isChain_singleton _, fun z hz w hw => ?_⟩
              rw [List.getLast?_append] at hz
              cases hz
              cases hw
              exact .inl rfl
        · intro z hz
          have hz : z ∈ (if acc = [] then acc else _) := hz
          by_cases he : acc = []
          · rw [if_pos he] at hz; exact .inl hz
          · rw [if_neg he] at hz
            rcases List.mem_append.mp hz with h | h
            · exact .inl h
            · right
              cases extra with
              | true =>
                rw [if_pos rfl, if_pos rfl] at h
                rw [List.mem_singleton.mp h]; simp
              | false =>
                rw [if_neg (by simp), if_neg (by simp)] at h
                have : z = x := by simpa using h
                rw [this]; simp
      · rw [if_neg hc']
        by_cases he : acc = []
        · rw [if_pos he]
          refine go acc h₂ (fun z hz => ?_) fun z hz => .inl hz
          rw [he] at hz
          cases hz
        · rw [if_neg he]
          exact go _ push.1 push.2 pm

/-- The points given are next to each other on the piece, or the same. -/
theorem along_chain {extra : Bool} {nodes : List Id} (h : nodes.IsChain R) :
    (along extra start stop nodes).IsChain (fun x y => x = y ∨ R x y) ∧
      ∀ z ∈ along extra start stop nodes, z ∈ nodes := by
  cases nodes with
  | nil =>
    unfold along
    rw [segLoop]
    dsimp only
    simp
  | cons a l =>
    have hc : (a :: a :: l).IsChain (fun x y => x = y ∨ R x y) := by
      rw [List.isChain_cons_cons]
      exact ⟨.inl rfl, h.imp fun _ _ => .inr⟩
    obtain ⟨h₁, h₂, h₃⟩ := segLoop_chain (start := start) (stop := stop) (extra := extra) (a :: l) true a [] hc
      List.isChain_nil (fun z hz => by cases hz)
    have h₂' : ∀ z ∈ (segLoop extra start stop true (a :: l) a []).1, z ∈ a :: l := by
      intro z hz
      rcases h₂ z hz with k | k
      · cases k
      · simpa using k
    unfold along
    rw [List.headD_cons]
    cases e : segLoop extra start stop true (a :: l) a [] with
    | mk r o =>
      rw [e] at h₁ h₂' h₃
      cases o with
      | none => exact ⟨h₁, h₂'⟩
      | some last =>
        dsimp only
        obtain ⟨g₁, g₂⟩ := h₃ last rfl
        split
        · refine ⟨?_, fun z hz => ?_⟩
          · rw [List.isChain_append]
            refine ⟨h₁, List.isChain_singleton _, fun z hz w hw => ?_⟩
            cases hw
            exact g₂ z hz
          · rcases List.mem_append.mp hz with k | k
            · exact h₂' z k
            · rw [List.mem_singleton.mp k]
              simpa using g₁
        · exact ⟨h₁, h₂'⟩

theorem segLoop_ends (hs : 0 < start) : ∀ (xs : List Id) (f : Bool) (last : Id) (acc : List Id),
    (acc = [] ∨ (acc.head? = some start ∧ acc.getLast? = some last)) →
    (segLoop false start stop f xs last acc).1 = [] ∨
      ((segLoop false start stop f xs last acc).1.head? = some start ∧
        (((segLoop false start stop f xs last acc).1.getLast? = some stop ∧ stop ∈ xs ∧ stop ≠ start) ∨
          (segLoop false start stop f xs last acc).1.getLast? = (last :: xs).getLast?))
  | [], f, last, acc, h => by
    rw [segLoop]
    exact h.imp id fun h => ⟨h.1, .inr h.2⟩
  | x :: xs, f, last, acc, h => by
    rw [segLoop]
    rw [if_neg (by simp : ¬ (false = true))]
    have lift : ∀ acc' : List Id, (acc' = [] ∨ (acc'.head? = some start ∧ acc'.getLast? = some x)) →
        (segLoop false start stop false xs x acc').1 = [] ∨
        ((segLoop false start stop false xs x acc').1.head? = some start ∧
        (((segLoop false start stop false xs x acc').1.getLast? = some stop ∧ stop ∈ x :: xs ∧
            stop ≠ start) ∨
          (segLoop false start stop false xs x acc').1.getLast? = (last :: x :: xs).getLast?)) := by
      intro acc' h'
      rw [List.getLast?_cons_cons]
      refine (segLoop_ends hs xs false x acc' h').imp id fun ⟨g₁, g₂⟩ => ⟨g₁, g₂.imp (fun g => ?_) id⟩
      exact ⟨g.1, List.mem_cons_of_mem _ g.2.1, g.2.2⟩
    split
    · rename_i hc
      refine lift _ (.inr ⟨?_, by rw [List.getLast?_append]; rfl⟩)
      rcases h with rfl | ⟨h, -⟩
      · rcases hc with ⟨h, -⟩ | rfl
        · exact absurd h (not_le.mpr hs)
        · rfl
      · rw [List.head?_append, h]; rfl
    · rename_i hc
      have hxs : x ≠ start := fun h => hc (.inr h)
      split
      · rename_i hc'
        rcases h with rfl | ⟨h, -⟩
        · left; simp
        · right
          have hne : acc ≠ [] := by rintro rfl; cases h
          rw [if_neg hne, if_neg (by simp : ¬ (false = true))]
          refine ⟨by rw [List.head?_append, h]; rfl, .inl ⟨?_, ?_, ?_⟩⟩
          · rw [List.getLast?_append, hc'.2]; rfl
          · rw [hc'.2]; simp
          · rw [← hc'.2]; exact hxs
      · rcases h with rfl | ⟨h, -⟩
        · rw [if_pos rfl]; exact lift _ (.inl rfl)
        · have hne : acc ≠ [] := by rintro rfl; cases h
          rw [if_neg hne]
          exact lift _ (.inr ⟨by rw [List.head?_append, h]; rfl, by rw [List.getLast?_append]; rfl⟩)

/-- Without the extra point: the points given begin with the first point; they end with
the second, if it comes later, or at the end of the piece. -/
theorem along_ends (hs : 0 < start) {nodes : List Id} (hne : along false start stop nodes ≠ []) :
    (along false start stop nodes).head? = some start ∧
      (((along false start stop nodes).getLast? = some stop ∧ stop ∈ nodes ∧ stop ≠ start) ∨
        (along false start stop nodes).getLast? = nodes.getLast?) := by
  have e : along false start stop nodes =
      (segLoop false start stop true nodes (nodes.headD 0) []).1 := by
    unfold along
    split
    · rename_i l last h
      rw [h, if_neg (by simp)]
    · rename_i l h
      rw [h]
  rw [e] at hne ⊢
  rcases segLoop_ends (start := start) (stop := stop) hs nodes true (nodes.headD 0) [] (.inl rfl) with h | ⟨h₁, h₂⟩
  · exact absurd h hne
  · refine ⟨h₁, h₂.imp id fun h => ?_⟩
    rw [h]
    cases nodes with
    | nil => rw [segLoop] at hne; exact absurd rfl hne
    | cons a l => rw [List.headD_cons, List.getLast?_cons_cons]

/-- If the first point is the first of the piece, something is given; if the other one
comes later, the points end there. -/
theorem along_head (hs : 0 < start) (he : 0 < stop) {rest : List Id} :
    along false start stop (start :: rest) ≠ [] ∧ (stop ∈ rest → stop ≠ start →
      (along false start stop (start :: rest)).getLast? = some stop) := by
  by_cases h : stop ∈ rest ∧ stop ≠ start
  · obtain ⟨h, hne⟩ := h
    obtain ⟨B, C, rfl, hB⟩ := List.eq_append_cons_of_mem h
    have := along_to (start := start) (stop := stop) hs he (A := []) (B := B) (C := C)
      (by simp) (by simp) hB (Ne.symm hne)
    rw [List.nil_append] at this
    rw [this]
    refine ⟨by simp, fun _ _ => ?_⟩
    rw [← List.cons_append, List.getLast?_append]
    rfl
  · refine ⟨?_, fun h₁ h₂ => absurd ⟨h₁, h₂⟩ h⟩
    by_cases hr : stop ∈ rest
    · have hss : stop = start := by
        by_contra hn; exact h ⟨hr, hn⟩
      subst hss
      unfold along
      intro hcon
      rw [segLoop, if_pos (.inr rfl)] at hcon
      have : ∀ (xs : List Id) (last : Id) (acc : List Id), acc ≠ [] →
          (segLoop false stop stop false xs last acc).1 ≠ [] := by
        intro xs
        induction xs with
        | nil => intro last acc h; rw [segLoop]; exact h
        | cons x xs ih =>
          intro last acc h
          rw [segLoop]
          by_cases hc : (stop ≤ 0 ∧ false = true) ∨ x = stop
          · rw [if_pos hc]; exact ih _ _ (by simp)
          · rw [if_neg hc, if_neg h, if_neg h]
            by_cases hc' : 0 < stop ∧ (if false = true then last else x) = stop
            · rw [if_pos hc']; simp
            · rw [if_neg hc']; exact ih _ _ (by simp)
      split at hcon
      · rename_i l last e
        rw [if_neg (by simp)] at hcon
        apply this rest stop ([] ++ [if false = true then (stop :: rest).headD 0 else stop]) (by simp)
        rw [e]; exact hcon
      · rename_i l e
        apply this rest stop ([] ++ [if false = true then (stop :: rest).headD 0 else stop]) (by simp)
        rw [e]; exact hcon
    · have := along_rest (start := start) (stop := stop) hs (A := []) (B := rest) (by simp) (by simp) hr
      rw [List.nil_append] at this
      rw [this]
      simp

end

/-! ### Pieces are kept both ways -/

/-- For every piece between two different points the reversed one is kept. -/
def Mirror (T : Table) : Prop :=
  ∀ a b p, a ≠ b → T.get (a, b) = some p → ∃ q, T.get (b, a) = some q ∧ q.nodes = p.nodes.reverse

theorem mirror_add {T : Table} (h : Mirror T) (a x w : Id) (F : List Id) (len : ℝ) :
    Mirror ((T.add (a, x) ⟨F, w, len⟩).add (x, a) ⟨F.reverse, w, len⟩) := by
  intro c d p hcd hp
  rw [Table.get_add, Table.get_add] at hp
  rw [Table.get_add, Table.get_add]
  cases e : T.get (c, d) with
  | some p' =>
    rw [e] at hp
    cases hp
    obtain ⟨q, hq, hr⟩ := h c d p hcd e
    exact ⟨q, by rw [hq], hr⟩
  | none =>
    have e' : T.get (d, c) = none := by
      cases e' : T.get (d, c) with
      | none => rfl
      | some q =>
        obtain ⟨q', hq', -⟩ := h d c q (Ne.symm hcd) e'
        rw [e] at hq'; cases hq'
    rw [e] at hp
    rw [e']
    dsimp only at hp ⊢
    by_cases h₁ : (a, x) = (c, d)
    · cases h₁
      rw [if_pos rfl] at hp
      cases hp
      rw [if_neg (by rintro ⟨⟩; exact hcd rfl)]
      dsimp only
      rw [if_pos rfl]
      exact ⟨_, rfl, rfl⟩
    · rw [if_neg h₁] at hp
      dsimp only at hp
      by_cases h₂ : (x, a) = (c, d)
      · cases h₂
        rw [if_pos rfl] at hp
        cases hp
        rw [if_pos rfl]
        exact ⟨_, rfl, by simp⟩
      · rw [if_neg h₂] at hp
        cases hp

theorem cut_mirror {plan : Id → Bool} {pos : Id → Option Pt} {w : Id} :
    ∀ (xs : List Id) (c : Cut) (T T' : Table), c.rev = c.fwd.reverse → Mirror T →
      cut plan pos w xs c T = .ok T' → Mirror T' := by
  intro xs
  induction xs with
  | nil => intro c T T' _ hm h; rw [cut] at h; cases h; exact hm
  | cons x xs ih =>
    intro c T T' hc hm h
    rw [cut] at h
    split at h
    · split at h
      · cases h
      · split at h
        · exact ih _ T T' (by simp [hc]) hm h
        · refine ih _ _ T' (by simp) ?_ h
          have := mirror_add hm
          rename_i a _ 
          have e : x :: c.rev = (c.fwd ++ [x]).reverse := by rw [hc]; simp
          rw [e]
          exact mirror_add hm _ _ _ _ _
    · split at h
      · exact ih _ T T' hc hm h
      · split at h
        · cases h
        · exact ih _ T T' (by simp [hc]) hm h

theorem cutAll_mirror {o : Order} {ways : List Way} {plan : Id → Bool} {pos : Id → Option Pt} :
    ∀ (ws : List Id) (T T' : Table), Mirror T → cutAll o ways plan pos ws T = .ok T' → Mirror T'
  | [], T, T', hm, h => by cases h; exact hm
  | w :: ws, T, T', hm, h => by
    rw [cutAll] at h
    obtain ⟨T₁, h₁, h₂⟩ := Outcome.bind_eq_ok.mp h
    exact cutAll_mirror ws T₁ T' (cut_mirror _ _ _ _ rfl hm h₁) h₂

theorem build_mirror {o : Order} {ways : List Way} {els : List NodeEl} {M : RoadMap}
    (hM : build o ways els = .ok M) : Mirror M.table := by
  unfold build at hM
  obtain ⟨T, h₁, hM⟩ := Outcome.bind_eq_ok.mp hM
  obtain ⟨y, h₂, hM⟩ := Outcome.bind_eq_ok.mp hM
  cases hM
  exact cutAll_mirror _ _ _ (fun a b p _ h => by cases h) h₁

end Verif.Roads
