import Verif.Dpss.Simplify

/-!
# Which points become waypoints (C165)
-/

namespace Verif.Dpss

open Complex

/-- The greatest separation, from the line between the points `u` and `v` of the road, of the points between them. -/
noncomputable def worst (road : List Pt) (u v : ℕ) : ℝ :=
  match road[u]?, road[v]? with
  | some a, some b => (((road.drop (u + 1)).take (v - (u + 1))).map fun p => (separation a.at_ p.at_ b.at_).2).foldr max 0
  | _, _ => 0

/-- A point of the road that must be kept. -/
def Kept (road : List Pt) (i : ℕ) : Prop := ∃ p, road[i]? = some p ∧ p.keep = true

/-- What is meant: as long as there are too many points, one is left out, neither the first nor the last and not one to be kept,
such that the points of the road are the least separated from the new line. -/
inductive Greedy (road : List Pt) (m : ℤ) : List ℕ → List ℕ → Prop
  | enough {s} : (s.length : ℤ) ≤ m → Greedy road m s s
  | stuck {s} : (∀ pre u w v post, s = pre ++ u :: w :: v :: post → Kept road w) → Greedy road m s s
  | leave {pre u w v post t} : m < ((pre ++ u :: w :: v :: post).length : ℤ) → ¬ Kept road w →
      (∀ pre' u' w' v' post', pre ++ u :: w :: v :: post = pre' ++ u' :: w' :: v' :: post' → ¬ Kept road w' →
        worst road u v ≤ worst road u' v') →
      Greedy road m (pre ++ u :: v :: post) t → Greedy road m (pre ++ u :: w :: v :: post) t

/-! ### The effects -/

theorem separation_nonneg (a b c : ℂ) : 0 ≤ (separation a b c).2 := by
  unfold separation
  simp only
  split
  · simp
  · split
    · simp
    · simp only
      split <;> positivity

theorem foldl_max {α : Type*} (f : α → ℝ) (l : List α) (e : ℝ) :
    l.foldl (fun e p => if e < f p then f p else e) e = max e ((l.map f).foldr max e) := by
  induction l generalizing e with
  | nil => simp
  | cons p l ih =>
      rw [List.foldl_cons, ih, List.map_cons, List.foldr_cons]
      have key : ∀ (l : List ℝ) (x y : ℝ), l.foldr max (max x y) = max x (l.foldr max y) := by
        intro l x y
        induction l with
        | nil => rfl
        | cons a l ih => rw [List.foldr_cons, ih, List.foldr_cons, max_left_comm]
      have e1 : (if e < f p then f p else e) = max (f p) e := by
        split
        · rw [max_eq_left (by linarith)]
        · rw [max_eq_right (by linarith)]
      rw [e1, key]
      rw [← max_assoc, max_comm (max (f p) e) (f p), ← max_assoc, max_self, max_comm (f p) e, max_assoc]

theorem foldr_max_base (l : List ℝ) {e : ℝ} (h0 : 0 ≤ e) (he : e ∈ l) : max e (l.foldr max e) = l.foldr max 0 := by
  have ge : ∀ (l : List ℝ) (b : ℝ), e ∈ l → e ≤ l.foldr max b := by
    intro l b h
    induction l with
    | nil => simp at h
    | cons a l ih =>
        rw [List.foldr_cons]
        rcases List.mem_cons.1 h with rfl | h
        · exact le_max_left _ _
        · exact (ih h).trans (le_max_right _ _)
  have le1 : ∀ l : List ℝ, l.foldr max 0 ≤ l.foldr max e := by
    intro l
    induction l with
    | nil => exact h0
    | cons a l ih => exact max_le_max_left a ih
  have le2 : ∀ l : List ℝ, l.foldr max e ≤ max e (l.foldr max 0) := by
    intro l
    induction l with
    | nil => exact le_max_left _ _
    | cons a l ih =>
        simp only [List.foldr_cons]
        refine max_le ((le_max_left _ _).trans (le_max_right _ _)) (ih.trans ?_)
        exact max_le_max_left e (le_max_right _ _)
  apply le_antisymm
  · refine max_le (ge l 0 he) ((le2 l).trans (max_le (ge l 0 he) (le_refl _)))
  · exact (le1 l).trans (le_max_right _ _)

/-- What holds of the entries: they are of points of the road, in order. -/
def Placed (road : List Pt) (l : List Way) : Prop :=
  (∀ w ∈ l, road[w.index]? = some w.pt) ∧ l.Pairwise fun u v => u.index < v.index

/-- The effects are the greatest separations. -/
def Effects (road : List Pt) : List Way → Prop
  | u :: w :: v :: l => w.effect = worst road u.index v.index ∧ Effects road (w :: v :: l)
  | _ => True

theorem effectOf_eq {road : List Pt} {u w v : Way} (hu : road[u.index]? = some u.pt) (hw : road[w.index]? = some w.pt)
    (hv : road[v.index]? = some v.pt) (h1 : u.index < w.index) (h2 : w.index < v.index) :
    effectOf road u w v = worst road u.index v.index := by
  unfold effectOf worst
  rw [hu, hv, foldl_max (fun p : Pt => (separation u.pt.at_ p.at_ v.pt.at_).2), foldr_max_base _ (separation_nonneg _ _ _)]
  refine List.mem_map.2 ⟨w.pt, ?_, rfl⟩
  apply List.mem_of_getElem? (i := w.index - (u.index + 1))
  rw [List.getElem?_take, if_pos (by omega), List.getElem?_drop, ← hw]
  congr 1; omega

theorem effects_head {road : List Pt} {w : Way} {e : ℝ} {l : List Way} :
    Effects road ({ w with effect := e } :: l) ↔ Effects road (w :: l) := by
  cases l with
  | nil => exact Iff.rfl
  | cons a l =>
      cases l with
      | nil => exact Iff.rfl
      | cons b l => exact Iff.rfl

theorem effects_tail {road : List Pt} {w : Way} {l : List Way} (h : Effects road (w :: l)) : Effects road l := by
  cases l with
  | nil => trivial
  | cons a l =>
      cases l with
      | nil => trivial
      | cons b l => exact h.2

theorem refresh_index (road : List Pt) (l : List Way) : (refresh road l).map (·.index) = l.map (·.index) ∧
    (refresh road l).map (·.pt) = l.map (·.pt) := by
  unfold refresh
  split <;> exact ⟨rfl, rfl⟩

theorem refresh_effects {road : List Pt} {u v : Way} {l : List Way} (hp : Placed road (u :: v :: l)) (h : Effects road (v :: l)) :
    Effects road (refresh road (u :: v :: l)) := by
  cases l with
  | nil => trivial
  | cons x l =>
      obtain ⟨h1, h2⟩ := hp
      rw [List.pairwise_cons, List.pairwise_cons] at h2
      refine ⟨effectOf_eq (h1 u (by simp)) (h1 v (by simp)) (h1 x (by simp)) (h2.1 v (by simp)) (h2.2.1 x (by simp)), ?_⟩
      exact effects_head.2 h

theorem leaveOut_index (road : List Pt) (u w v : Way) (post : List Way) : ∀ pre : List Way,
    (leaveOut road pre.length (pre ++ u :: w :: v :: post)).map (·.index) = (pre ++ u :: v :: post).map (·.index) ∧
    (leaveOut road pre.length (pre ++ u :: w :: v :: post)).map (·.pt) = (pre ++ u :: v :: post).map (·.pt)
  | [] => refresh_index road _
  | [t] => by
      have h := refresh_index road (u :: v :: post)
      have h' := refresh_index road (t :: refresh road (u :: v :: post))
      simp only [List.length_singleton, List.singleton_append, leaveOut]
      rw [h'.1, h'.2]
      simp only [List.map_cons] at h ⊢
      rw [h.1, h.2]
      exact ⟨rfl, rfl⟩
  | t :: t' :: pre => by
      have h := leaveOut_index road u w v post (t' :: pre)
      simp only [List.length_cons, List.cons_append, leaveOut, List.map_cons] at h ⊢
      rw [h.1, h.2]
      exact ⟨rfl, rfl⟩

theorem leaveOut_head (road : List Pt) (u w v t : Way) (pre post : List Way) :
    ∃ rest, leaveOut road (t :: pre).length (t :: pre ++ u :: w :: v :: post) = t :: rest := by
  cases pre with
  | nil =>
      simp only [List.length_singleton, List.singleton_append, leaveOut]
      generalize refresh road (u :: v :: post) = r
      cases r with
      | nil => exact ⟨_, rfl⟩
      | cons a r =>
          cases r with
          | nil => exact ⟨_, rfl⟩
          | cons b r => exact ⟨_, rfl⟩
  | cons t' pre => exact ⟨_, rfl⟩

theorem Placed.sub {road : List Pt} {l m : List Way} (h : Placed road l) (hs : m.Sublist l) : Placed road m :=
  ⟨fun w hw => h.1 w (hs.subset hw), h.2.sublist hs⟩

theorem leaveOut_effects {road : List Pt} {u w v : Way} {post : List Way} : ∀ pre : List Way,
    Placed road (pre ++ u :: w :: v :: post) → Effects road (pre ++ u :: w :: v :: post) →
    Effects road (leaveOut road pre.length (pre ++ u :: w :: v :: post))
  | [], hp, he => by
      refine refresh_effects (hp.sub ?_) (effects_tail (effects_tail he))
      exact (List.sublist_cons_self w (v :: post)).cons_cons u
  | [t], hp, he => by
      have hp' : Placed road (t :: u :: v :: post) :=
        hp.sub (((List.sublist_cons_self w (v :: post)).cons_cons u).cons_cons t)
      have h1 := refresh_effects (hp'.sub (List.sublist_cons_self t _)) (effects_tail (effects_tail (effects_tail he)))
      simp only [List.length_singleton, List.singleton_append, leaveOut]
      have hut := hp'.1 u (by simp)
      have htt := hp'.1 t (by simp)
      have hvt := hp'.1 v (by simp)
      have hpw := hp'.2
      rw [List.pairwise_cons, List.pairwise_cons] at hpw
      have e := effectOf_eq htt hut hvt (hpw.1 u (by simp)) (hpw.2.1 v (by simp))
      cases post with
      | nil => exact ⟨e, trivial⟩
      | cons x post => exact ⟨e, effects_head.2 h1⟩
  | t :: t' :: pre, hp, he => by
      have ih := leaveOut_effects (t' :: pre) (hp.sub (List.sublist_cons_self t _)) (effects_tail he)
      have hi := (leaveOut_index road u w v post (t' :: pre)).1
      obtain ⟨rest, hr⟩ := leaveOut_head road u w v t' pre post
      have e : leaveOut road (t :: t' :: pre).length (t :: t' :: pre ++ u :: w :: v :: post)
          = t :: leaveOut road (t' :: pre).length (t' :: pre ++ u :: w :: v :: post) := rfl
      rw [e]
      rw [hr] at hi ih ⊢
      cases rest with
      | nil => trivial
      | cons y rest =>
          refine ⟨?_, ih⟩
          have hy : y.index = ((pre ++ [u]).head (by simp)).index := by
            cases pre with
            | nil =>
                simp only [List.map_cons, List.map_append, List.cons_append, List.map_nil, List.nil_append, List.cons.injEq] at hi
                exact hi.2.1
            | cons a pre =>
                simp only [List.map_cons, List.map_append, List.cons_append, List.cons.injEq] at hi
                exact hi.2.1
          rw [hy]
          cases pre with
          | nil => exact he.1
          | cons a pre => exact he.1

/-! ### Which is left out -/

theorem least_spec : ∀ (l : List Way) (best : Option (ℕ × ℝ)) (i : ℕ),
    (∀ pre w x post, l = pre ++ w :: x :: post → w.pt.keep = false → ∃ b, least best i l = some b ∧ b.2 ≤ w.effect) ∧
    (∀ b, best = some b → ∃ b', least best i l = some b' ∧ b'.2 ≤ b.2) ∧
    (∀ b', least best i l = some b' → best = some b' ∨
      ∃ pre w x post, l = pre ++ w :: x :: post ∧ w.pt.keep = false ∧ b' = (i + pre.length, w.effect))
  | [], best, i => by
      refine ⟨fun pre w x post h => by simp at h, fun b h => ⟨b, by rw [least, h], le_refl _⟩, fun b' h => Or.inl h⟩
  | [y], best, i => by
      refine ⟨fun pre w x post h => ?_, fun b h => ⟨b, by rw [least, h], le_refl _⟩, fun b' h => Or.inl h⟩
      have := congrArg List.length h; simp at this; omega
  | w :: x :: l, best, i => by
      obtain ⟨best', hb⟩ : ∃ best', (if w.pt.keep then best
        else match best with
          | none => some (i, w.effect)
          | some b => if w.effect < b.2 then some (i, w.effect) else best) = best' := ⟨_, rfl⟩
      have key : least best i (w :: x :: l) = least best' (i + 1) (x :: l) := by rw [← hb]; rfl
      rw [key]
      obtain ⟨h1, h2, h3⟩ := least_spec (x :: l) best' (i + 1)
      have hw : w.pt.keep = false → ∃ b, best' = some b ∧ b.2 ≤ w.effect := by
        intro hk
        rw [hk] at hb
        simp only [Bool.false_eq_true, if_false] at hb
        cases best with
        | none => exact ⟨(i, w.effect), hb.symm, le_refl _⟩
        | some b =>
            by_cases hlt : w.effect < b.2
            · simp only [hlt, if_true] at hb; exact ⟨_, hb.symm, le_refl _⟩
            · simp only [hlt, if_false] at hb; exact ⟨_, hb.symm, not_lt.1 hlt⟩
      have hbb : ∀ b, best = some b → ∃ b', best' = some b' ∧ b'.2 ≤ b.2 := by
        rintro b rfl
        cases hk : w.pt.keep with
        | true => rw [hk] at hb; simp only [if_true] at hb; exact ⟨b, hb.symm, le_refl _⟩
        | false =>
            rw [hk] at hb
            simp only [Bool.false_eq_true, if_false] at hb
            by_cases hlt : w.effect < b.2
            · simp only [hlt, if_true] at hb; exact ⟨_, hb.symm, hlt.le⟩
            · simp only [hlt, if_false] at hb; exact ⟨_, hb.symm, le_refl _⟩
      have hor : best' = best ∨ (w.pt.keep = false ∧ best' = some (i, w.effect)) := by
        cases hk : w.pt.keep with
        | true => rw [hk] at hb; simp only [if_true] at hb; exact Or.inl hb.symm
        | false =>
            rw [hk] at hb
            simp only [Bool.false_eq_true, if_false] at hb
            cases best with
            | none => exact Or.inr ⟨rfl, hb.symm⟩
            | some b =>
                by_cases hlt : w.effect < b.2
                · simp only [hlt, if_true] at hb; exact Or.inr ⟨rfl, hb.symm⟩
                · simp only [hlt, if_false] at hb; exact Or.inl hb.symm
      refine ⟨?_, ?_, ?_⟩
      · intro pre w' x' post h hk
        cases pre with
        | nil =>
            simp only [List.nil_append, List.cons.injEq] at h
            obtain ⟨rfl, rfl, rfl⟩ := h
            obtain ⟨b, hb1, hb2⟩ := hw hk
            obtain ⟨b', hb3, hb4⟩ := h2 b hb1
            exact ⟨b', hb3, hb4.trans hb2⟩
        | cons a pre =>
            simp only [List.cons_append, List.cons.injEq] at h
            exact h1 pre w' x' post h.2 hk
      · intro b h
        obtain ⟨b', hb1, hb2⟩ := hbb b h
        obtain ⟨b'', hb3, hb4⟩ := h2 b' hb1
        exact ⟨b'', hb3, hb4.trans hb2⟩
      · intro b' h
        rcases h3 b' h with h | ⟨pre, w', x', post, hl, hk, rfl⟩
        · rcases hor with e | ⟨hk, e⟩
          · exact Or.inl (by rw [← e, h])
          · rw [e] at h
            refine Or.inr ⟨[], w, x, l, rfl, hk, ?_⟩
            simpa using (Option.some.inj h).symm
        · refine Or.inr ⟨w :: pre, w', x', post, by rw [hl]; rfl, hk, ?_⟩
          simp only [List.length_cons, Prod.mk.injEq, and_true]
          omega

theorem kept_iff {road : List Pt} {w : Way} (h : road[w.index]? = some w.pt) : Kept road w.index ↔ w.pt.keep = true := by
  unfold Kept
  rw [h]
  simp

theorem effects_mem {road : List Pt} {u w v : Way} {post : List Way} : ∀ {pre : List Way},
    Effects road (pre ++ u :: w :: v :: post) → w.effect = worst road u.index v.index
  | [], h => h.1
  | _ :: _, h => effects_mem (effects_tail h)

theorem map_split {l : List Way} {pre : List ℕ} {u w v : ℕ} {post : List ℕ} (h : l.map (·.index) = pre ++ u :: w :: v :: post) :
    ∃ pre' a b c post', l = pre' ++ a :: b :: c :: post' ∧ a.index = u ∧ b.index = w ∧ c.index = v := by
  obtain ⟨l1, l2, rfl, h1, h2⟩ := List.map_eq_append_iff.1 h
  obtain ⟨a, l3, rfl, ha, h3⟩ := List.map_eq_cons_iff.1 h2
  obtain ⟨b, l4, rfl, hb, h4⟩ := List.map_eq_cons_iff.1 h3
  obtain ⟨c, l5, rfl, hc, h5⟩ := List.map_eq_cons_iff.1 h4
  exact ⟨l1, a, b, c, l5, rfl, ha, hb, hc⟩

theorem thin_greedy {road : List Pt} {m : ℤ} : ∀ (n : ℕ) (l : List Way), Placed road l → Effects road l →
    n = ((l.length : ℤ) - m).toNat →
    Greedy road m (l.map (·.index)) ((thin road n l).map (·.index)) ∧ ∀ w ∈ thin road n l, road[w.index]? = some w.pt
  | 0, l, hp, he, hn => by
      refine ⟨Greedy.enough ?_, hp.1⟩
      rw [List.length_map]; omega
  | n + 1, l, hp, he, hn => by
      obtain ⟨h1, h2, h3⟩ := least_spec l.tail none 1
      rw [thin]
      cases hl : least none 1 l.tail with
      | none =>
          refine ⟨Greedy.stuck ?_, hp.1⟩
          intro pre u w v post h
          obtain ⟨pre', a, b, c, post', rfl, ha, hb, hc⟩ := map_split h
          rw [← hb, kept_iff (hp.1 b (by simp))]
          by_contra hk
          have hk : b.pt.keep = false := by simpa using hk
          have : ∃ b', least none 1 (pre' ++ a :: b :: c :: post').tail = some b' ∧ b'.2 ≤ b.effect := by
            cases pre' with
            | nil => exact h1 [] b c post' rfl hk
            | cons t pre' => exact h1 (pre' ++ [a]) b c post' (by simp) hk
          obtain ⟨b', hb', -⟩ := this
          rw [hl] at hb'
          simp at hb'
      | some b =>
          rcases h3 b hl with h | ⟨pre0, w, v, post, ht, hk, rfl⟩
          · simp at h
          · have hsplit : ∃ pre u, l = pre ++ u :: w :: v :: post ∧ pre.length = pre0.length := by
              cases l with
              | nil => simp at ht
              | cons t l =>
                  simp only [List.tail_cons] at ht
                  rcases List.eq_nil_or_concat pre0 with rfl | ⟨pre1, u, rfl⟩
                  · exact ⟨[], t, by rw [ht]; rfl, rfl⟩
                  · exact ⟨t :: pre1, u, by rw [ht]; simp, by simp⟩
            obtain ⟨pre, u, rfl, hlen⟩ := hsplit
            simp only
            have e : 1 + pre0.length - 1 = pre.length := by omega
            rw [e]
            have hi := leaveOut_index road u w v post pre
            have hpl : Placed road (leaveOut road pre.length (pre ++ u :: w :: v :: post)) := by
              have hsub : (pre ++ u :: v :: post).Sublist (pre ++ u :: w :: v :: post) :=
                ((List.sublist_cons_self w (v :: post)).cons_cons u).append_left pre
              obtain ⟨q1, q2⟩ := hp.sub hsub
              constructor
              · have q3 : ∀ x ∈ ((pre ++ u :: v :: post).map (·.index)).zip ((pre ++ u :: v :: post).map (·.pt)),
                    road[x.1]? = some x.2 := by
                  rw [List.zip_map']
                  intro x hx
                  obtain ⟨y, hy, rfl⟩ := List.mem_map.1 hx
                  exact q1 y hy
                rw [← hi.1, ← hi.2, List.zip_map'] at q3
                intro x hx
                exact q3 _ (List.mem_map.2 ⟨x, hx, rfl⟩)
              · have q4 : ((pre ++ u :: v :: post).map (·.index)).Pairwise (· < ·) := List.pairwise_map.2 q2
                rw [← hi.1] at q4
                exact List.pairwise_map.1 q4
            have hln : (leaveOut road pre.length (pre ++ u :: w :: v :: post)).length = (pre ++ u :: v :: post).length := by
              have := congrArg List.length hi.1
              simpa using this
            obtain ⟨g1, g2⟩ := thin_greedy (m := m) n (leaveOut road pre.length (pre ++ u :: w :: v :: post)) hpl (leaveOut_effects pre hp he) (by
              rw [hln]; simp only [List.length_append, List.length_cons] at hn ⊢; omega)
            refine ⟨?_, g2⟩
            rw [hi.1] at g1
            simp only [List.map_append, List.map_cons] at g1 ⊢
            refine Greedy.leave ?_ ?_ ?_ g1
            · simp only [List.length_append, List.length_cons, List.length_map] at hn ⊢; omega
            · rw [kept_iff (hp.1 w (by simp)), hk]; simp
            · intro pre' u' w' v' post' h hk'
              obtain ⟨pre'', a, b, c, post'', hL, ha, hb, hc⟩ := map_split (l := pre ++ u :: w :: v :: post) (by
                simpa only [List.map_append, List.map_cons] using h)
              rw [← ha, ← hc, ← effects_mem he]
              have hb1 : road[b.index]? = some b.pt := hp.1 b (by rw [hL]; simp)
              rw [← hb, kept_iff hb1] at hk'
              have hk' : b.pt.keep = false := by simpa using hk'
              rw [hL] at he
              rw [← effects_mem he]
              have : ∃ b', least none 1 (pre ++ u :: w :: v :: post).tail = some b' ∧ b'.2 ≤ b.effect := by
                rw [hL] at h1 ⊢
                cases pre'' with
                | nil => exact h1 [] b c post'' rfl hk'
                | cons t pre'' => exact h1 (pre'' ++ [a]) b c post'' (by simp) hk'
              obtain ⟨b', hb', hle⟩ := this
              rw [hl] at hb'
              obtain rfl := Option.some.inj hb'
              exact hle

/-! ### The beginning -/

theorem waysFrom_spec {road : List Pt} : ∀ (l : List Pt) (i : ℕ) (a : Pt), road[i]? = some a → road.drop (i + 1) = l →
    (waysFrom (i + 1) a l).map (·.pt) = l ∧ (waysFrom (i + 1) a l).map (·.index) = List.range' (i + 1) l.length ∧
    ∀ e, Effects road (⟨a, e, i⟩ :: waysFrom (i + 1) a l)
  | [], i, a, _, _ => ⟨rfl, rfl, fun _ => trivial⟩
  | [b], i, a, _, _ => ⟨rfl, rfl, fun _ => trivial⟩
  | b :: c :: l, i, a, ha, hl => by
      have hb : road[i + 1]? = some b := by
        have := congrArg (fun l => l[0]?) hl
        simpa using this
      have hc : road[i + 2]? = some c := by
        have := congrArg (fun l => l[1]?) hl
        simpa using this
      have ht : road.drop (i + 1 + 1) = c :: l := by
        rw [← List.drop_drop, hl]; rfl
      obtain ⟨h1, h2, h3⟩ := waysFrom_spec (c :: l) (i + 1) b hb ht
      refine ⟨by rw [waysFrom, List.map_cons, h1], ?_, ?_⟩
      · rw [waysFrom, List.map_cons, h2]
        simp [List.range'_succ]
      · intro e
        rw [waysFrom]
        have h4 := h3 (separation a.at_ b.at_ c.at_).2
        have hidx : ∃ y rest, waysFrom (i + 1 + 1) b (c :: l) = y :: rest ∧ y.index = i + 2 := by
          cases l with
          | nil => exact ⟨_, _, rfl, rfl⟩
          | cons d l => exact ⟨_, _, rfl, rfl⟩
        obtain ⟨y, rest, hy, hyi⟩ := hidx
        rw [hy] at h4 ⊢
        refine ⟨?_, h4⟩
        rw [hyi]
        unfold worst
        rw [ha, hc]
        simp only
        have e1 : (road.drop (i + 1)).take (i + 2 - (i + 1)) = [b] := by
          rw [hl, show i + 2 - (i + 1) = 1 by omega]; rfl
        rw [e1]
        simp [separation_nonneg]

theorem ways_spec (l : List Pt) : (ways l).map (·.pt) = l ∧ (ways l).map (·.index) = List.range l.length ∧
    Placed l (ways l) ∧ Effects l (ways l) := by
  have h : (ways l).map (·.pt) = l ∧ (ways l).map (·.index) = List.range l.length ∧ Effects l (ways l) := by
    cases l with
    | nil => exact ⟨rfl, rfl, trivial⟩
    | cons a l =>
        obtain ⟨h1, h2, h3⟩ := waysFrom_spec (road := a :: l) l 0 a rfl rfl
        refine ⟨by rw [ways, List.map_cons]; exact congrArg _ h1, ?_, h3 0⟩
        rw [ways, List.map_cons]
        simp only [zero_add] at h2
        rw [h2, List.length_cons, List.range_eq_range', List.range'_succ]
  obtain ⟨h1, h2, h3⟩ := h
  refine ⟨h1, h2, ⟨?_, ?_⟩, h3⟩
  · intro w hw
    obtain ⟨i, hi, rfl⟩ := List.mem_iff_getElem.1 hw
    have e1 : (ways l)[i].index = i := by
      have := congrArg (fun m => m[i]?) h2
      simp only [List.getElem?_map, List.getElem?_eq_getElem hi, Option.map_some] at this
      rw [List.getElem?_range (by
        have := congrArg List.length h2; simp at this; omega)] at this
      exact Option.some.inj this
    have e2 := congrArg (fun m => m[i]?) h1
    simp only [List.getElem?_map, List.getElem?_eq_getElem hi, Option.map_some] at e2
    rw [e1, ← e2]
  · have : ((ways l).map (·.index)).Pairwise (· < ·) := by rw [h2]; exact List.pairwise_lt_range
    exact List.pairwise_map.1 this

/-- **C165.**  The waypoints of a plan are points of the road, and they are what is left when, as long as there are more than
asked for, the point is left out after which the points of the road are the least separated from the plan. -/
theorem C165_greedy (l : List Pt) (m : ℤ) :
    Greedy l m (List.range l.length) ((planQuickly l m).map (·.index)) ∧
    ∀ w ∈ planQuickly l m, l[w.index]? = some w.pt := by
  obtain ⟨h1, h2, h3, h4⟩ := ways_spec l
  have hl : (ways l).length = l.length := by simpa using congrArg List.length h1
  have := thin_greedy (road := l) (m := m) _ (ways l) h3 h4 rfl
  rw [h2, hl] at this
  exact this

/-! ### What follows -/

theorem Greedy.sub {road : List Pt} {m : ℤ} {s t : List ℕ} (h : Greedy road m s t) : t.Sublist s := by
  induction h with
  | enough _ => exact List.Sublist.refl _
  | stuck _ => exact List.Sublist.refl _
  | leave _ _ _ _ ih => exact ih.trans (((List.sublist_cons_self _ _).cons_cons _).append_left _)

theorem Greedy.ends {road : List Pt} {m : ℤ} {s t : List ℕ} (h : Greedy road m s t) :
    t.head? = s.head? ∧ t.getLast? = s.getLast? := by
  induction h with
  | enough _ => exact ⟨rfl, rfl⟩
  | stuck _ => exact ⟨rfl, rfl⟩
  | @leave pre u w v post t _ _ _ _ ih =>
      rw [ih.1, ih.2]
      constructor
      · cases pre <;> rfl
      · simp only [List.getLast?_append, List.getLast?_cons_cons]

theorem Greedy.keeps {road : List Pt} {m : ℤ} {s t : List ℕ} (h : Greedy road m s t) : ∀ i ∈ s, Kept road i → i ∈ t := by
  induction h with
  | enough _ => exact fun i hi _ => hi
  | stuck _ => exact fun i hi _ => hi
  | @leave pre u w v post t _ hw _ _ ih =>
      intro i hi hk
      apply ih i _ hk
      simp only [List.mem_append, List.mem_cons] at hi ⊢
      rcases hi with hi | hi | hi | hi
      · exact Or.inl hi
      · exact Or.inr (Or.inl hi)
      · subst hi; exact absurd hk hw
      · exact Or.inr (Or.inr hi)

theorem Greedy.size {road : List Pt} {m : ℤ} {s t : List ℕ} (h : Greedy road m s t) :
    ((s.length : ℤ) ≤ m → t = s) ∧ (m ≤ s.length → m ≤ t.length) ∧
    (m < t.length → ∀ pre u w v post, t = pre ++ u :: w :: v :: post → Kept road w) := by
  induction h with
  | enough h => exact ⟨fun _ => rfl, fun h => h, fun h' => absurd h' (by omega)⟩
  | stuck h => exact ⟨fun _ => rfl, fun h => h, fun _ => h⟩
  | @leave pre u w v post t hm hw _ _ ih =>
      refine ⟨fun h => absurd h (by omega), fun _ => ih.2.1 ?_, ih.2.2⟩
      simp only [List.length_append, List.length_cons] at hm ⊢; omega

/-- **C165.**  A plan keeps the first and the last point of the road and all that must be kept, leaves out none if there are not too
many, never too many of them, and as many as needed unless only points are left that must be kept. -/
theorem C165_plan (l : List Pt) (m : ℤ) :
    ((planQuickly l m).map (·.pt)).Sublist l ∧
    ((planQuickly l m).map (·.pt)).head? = l.head? ∧ ((planQuickly l m).map (·.pt)).getLast? = l.getLast? ∧
    (∀ p ∈ l, p.keep = true → p ∈ (planQuickly l m).map (·.pt)) ∧
    ((l.length : ℤ) ≤ m → (planQuickly l m).map (·.pt) = l) ∧
    (m ≤ l.length → m ≤ (planQuickly l m).length) ∧
    (m < (planQuickly l m).length → ∀ pre u w v post,
      (planQuickly l m).map (·.pt) = pre ++ u :: w :: v :: post → w.keep = true) := by
  obtain ⟨hg, hp⟩ := C165_greedy l m
  generalize planQuickly l m = r at *
  have hr : (r.map (·.pt)).map some = (r.map (·.index)).map (fun i => l[i]?) := by
    rw [List.map_map, List.map_map]
    exact List.map_congr_left fun w hw => (hp w hw).symm
  have hl : l.map some = (List.range l.length).map (fun i => l[i]?) := by
    apply List.ext_getElem
    · simp
    · intro i h1 h2
      simp only [List.length_map] at h1
      simp [h1]
  have inj : ∀ {a b : List Pt}, a.map some = b.map some → a = b := fun h =>
    (List.map_injective_iff.2 (Option.some_injective _)) h
  have hlen : (List.range l.length).length = l.length := by simp
  refine ⟨?_, ?_, ?_, ?_, ?_, ?_, ?_⟩
  · have h : ((r.map (·.pt)).map some).Sublist (l.map some) := by rw [hr, hl]; exact hg.sub.map _
    have h' := h.filterMap id
    simpa [List.filterMap_map] using h'
  · have := congrArg (Option.map fun i => l[i]?) hg.ends.1
    rw [← List.head?_map, ← List.head?_map, ← hr, ← hl, List.head?_map (f := some), List.head?_map (f := some)] at this
    exact Option.map_injective (Option.some_injective _) this
  · have := congrArg (Option.map fun i => l[i]?) hg.ends.2
    rw [← List.getLast?_map, ← List.getLast?_map, ← hr, ← hl, List.getLast?_map (f := some), List.getLast?_map (f := some)] at this
    exact Option.map_injective (Option.some_injective _) this
  · intro p hpl hk
    obtain ⟨i, hi, rfl⟩ := List.mem_iff_getElem.1 hpl
    have := hg.keeps i (List.mem_range.2 hi) ⟨l[i], List.getElem?_eq_getElem hi, hk⟩
    obtain ⟨w, hw, rfl⟩ := List.mem_map.1 this
    have e := hp w hw
    rw [List.getElem?_eq_getElem hi] at e
    rw [Option.some.inj e]
    exact List.mem_map.2 ⟨w, hw, rfl⟩
  · intro h
    apply inj
    rw [hr, hl, hg.size.1 (by rw [hlen]; exact h)]
  · intro h
    simpa using hg.size.2.1 (by rw [hlen]; exact h)
  · intro h pre u w v post hs
    obtain ⟨l1, l2, rfl, h1, h2⟩ := List.map_eq_append_iff.1 hs
    obtain ⟨a, l3, rfl, ha, h3⟩ := List.map_eq_cons_iff.1 h2
    obtain ⟨b, l4, rfl, hb, h4⟩ := List.map_eq_cons_iff.1 h3
    obtain ⟨c, l5, rfl, hc, h5⟩ := List.map_eq_cons_iff.1 h4
    have := hg.size.2.2 (by simpa using h) (l1.map (·.index)) a.index b.index c.index (l5.map (·.index)) (by simp)
    rw [kept_iff (hp b (by simp)), hb] at this
    exact this

/-- **C165.**  When no point must be kept there are exactly as many waypoints as asked for, or as points. -/
theorem C165_number {l : List Pt} {m : ℕ} (hm : 2 ≤ m) (hk : ∀ p ∈ l, p.keep = false) :
    (planQuickly l m).length = min l.length m := by
  obtain ⟨h1, -, -, -, h5, h6, h7⟩ := C165_plan l m
  rcases le_total l.length m with h | h
  · rw [min_eq_left h]
    have := congrArg List.length (h5 (by exact_mod_cast h))
    simpa using this
  · rw [min_eq_right h]
    have h6 := h6 (by exact_mod_cast h)
    by_contra hne
    have hlt : (m : ℤ) < (planQuickly l m).length := by omega
    have hsub := h1.subset
    generalize hq : (planQuickly l m).map (·.pt) = q at *
    have hql : q.length = (planQuickly l m).length := by rw [← hq]; simp
    have h3 : 3 ≤ q.length := by omega
    match q, h3 with
    | u :: w :: v :: post, _ =>
        have h8 := h7 hlt [] u w v post rfl
        have h9 := hk w (hsub (by simp))
        rw [h9] at h8; simp at h8

end Verif.Dpss
