import Verif.Task.Activity

/-! The waypoints of an implementation. -/

namespace Verif.Task

open Verif

/-- `Chain` of a list with the last waypoint first. -/
def RChain (n : Int) : List Wp → Prop
  | [] => True
  | [w] => w.number = n
  | w :: b :: bs => w.number = b.number + 1 ∧ b.next = w.number ∧ RChain n (b :: bs)

theorem RChain.congr_head {n : Int} {w w' : Wp} {bs : List Wp} (h : RChain n (w :: bs)) (e : w'.number = w.number) :
    RChain n (w' :: bs) := by
  cases bs with
  | nil => rw [RChain] at h ⊢; rw [e]; exact h
  | cons b bs => rw [RChain] at h ⊢; rw [e]; exact h

theorem chain_snoc (l : List Wp) (n : Int) (b w : Wp) :
    Chain n (l ++ [b, w]) ↔ Chain n (l ++ [b]) ∧ b.next = w.number ∧ w.number = b.number + 1 := by
  induction l generalizing n with
  | nil =>
    simp only [List.nil_append, Chain]
    constructor
    · rintro ⟨h1, h2, h3⟩; exact ⟨h1, h2, by omega⟩
    · rintro ⟨h1, h2, h3⟩; exact ⟨h1, h2, by omega⟩
  | cons x l ih =>
    cases l with
    | nil =>
      simp only [List.nil_append, List.cons_append, Chain]
      constructor
      · rintro ⟨h0, h0', h1, h2, h3⟩; exact ⟨⟨h0, h0', h1⟩, h2, by omega⟩
      · rintro ⟨⟨h0, h0', h1⟩, h2, h3⟩; exact ⟨h0, h0', h1, h2, by omega⟩
    | cons y l =>
      have := ih (n + 1)
      simp only [List.cons_append, Chain] at this ⊢
      constructor
      · rintro ⟨h0, h0', h⟩
        have h' := this.mp h
        exact ⟨⟨h0, h0', h'.1⟩, h'.2⟩
      · rintro ⟨⟨h0, h0', h⟩, h'⟩
        exact ⟨h0, h0', this.mpr ⟨h, h'⟩⟩

theorem RChain.chain {n : Int} : ∀ {l : List Wp}, RChain n l → Chain n l.reverse
  | [], _ => trivial
  | [w], h => h
  | w :: b :: bs, h => by
    have h3 : Chain n (b :: bs).reverse := RChain.chain h.2.2
    rw [List.reverse_cons] at h3
    rw [List.reverse_cons, List.reverse_cons, List.append_assoc]
    exact (chain_snoc _ _ _ _).mpr ⟨h3, h.2.1, h.1⟩

/-- The next number continues the list. -/
def Counts (n : Int) (a : Acc) : Prop :=
  RChain n a.rev ∧ a.next = match a.rev with | [] => n | b :: _ => b.number + 1

theorem Counts.add {n : Int} {a : Acc} (h : Counts n a) (c : Config) (v : VConfig) (sb tr : Bool) (w : Wp) :
    Counts n (a.add c v sb tr w) := by
  obtain ⟨h1, h2⟩ := h
  rw [Acc.add]
  dsimp only
  cases hr : a.rev with
  | nil =>
    rw [hr] at h2
    dsimp only at h2 ⊢
    exact ⟨h2, rfl⟩
  | cons b bs =>
    rw [hr] at h1 h2
    dsimp only at h2 ⊢
    split
    · exact ⟨h1.congr_head rfl, rfl⟩
    · refine ⟨⟨h2, rfl, h1.congr_head rfl⟩, rfl⟩

theorem Counts.addAll {n : Int} (c : Config) (v : VConfig) (sb tr : Bool) (ws : List Wp) {a : Acc} (h : Counts n a) :
    Counts n (a.addAll c v sb tr ws).1 := by
  induction ws generalizing a with
  | nil => exact h
  | cons w ws ih => exact ih (h.add c v sb tr w)

theorem Counts.plans {n : Int} (c : Config) (v : VConfig) (sb : Bool) (tr : Int) (rs : Option (List Wp))
    (l : List (Int × RoutePlan)) {f : Bool} {a : Acc} (h : Counts n a) : Counts n (a.plans c v sb tr rs f l).1 := by
  induction l generalizing f a with
  | nil => exact h
  | cons x l ih =>
    obtain ⟨k, p⟩ := x
    rw [Acc.plans]
    dsimp only
    split
    · exact ih (h.addAll c v sb _ _)
    · exact ih (h.addAll c v sb _ _)

theorem Counts.assemble (s : St) (sb : Bool) (v : VConfig) (q : ImplReq) (c : OptClass) :
    Chain q.start (s.assemble sb v q c).1.rev.reverse := by
  have h0 : Counts q.start ({ next := q.start, firstActive := c.firstActive } : Acc) := ⟨trivial, rfl⟩
  exact (h0.plans s.cfg v sb s.transition c.restartPlan c.plans).1.chain

/-! ### The end of the list -/

theorem terminal_snoc (t : Int) (l : List Wp) (w : Wp) : terminal t (l ++ [w]) = l ++ terminal t [w] := by
  induction l with
  | nil => rfl
  | cons x l ih =>
    cases l with
    | nil => rfl
    | cons y l =>
      rw [List.cons_append] at ih
      show x :: terminal t (y :: (l ++ [w])) = _
      rw [ih]; rfl

theorem chain_terminal {n : Int} (t : Int) {ws : List Wp} (h : Chain n ws) : Chain n (terminal t ws) := by
  induction ws using snocRec with
  | nil => exact trivial
  | append_singleton l w _ =>
    have key : ∀ w' : Wp, w'.number = w.number → Chain n (l ++ [w']) := by
      intro w' e
      induction l using snocRec with
      | nil => rw [List.nil_append] at h ⊢; rw [Chain] at h ⊢; rw [e]; exact h
      | append_singleton l b _ =>
        rw [List.append_assoc] at h ⊢
        have h' := (chain_snoc _ _ _ _).mp h
        exact (chain_snoc _ _ _ _).mpr (by rw [e]; exact h')
    rw [terminal_snoc, terminal]
    split
    · exact (chain_snoc _ _ _ _).mpr ⟨key _ rfl, rfl, rfl⟩
    · exact key _ rfl

theorem terminal_ne_nil (t : Int) {ws : List Wp} (h : ws ≠ []) : terminal t ws ≠ [] := by
  induction ws using snocRec with
  | nil => exact absurd rfl h
  | append_singleton l w _ =>
    rw [terminal_snoc, terminal]
    split <;> simp

theorem terminal_ends (t : Int) (l : List Wp) {w : Wp} (h : w.next = 0) :
    ∃ x y, terminal t (l ++ [w]) = l ++ [x, y] ∧ y.next = y.number ∧ y.tasks = [] ∧ y.place = w.place ∧ x.place = w.place ∧
      x.tasks = (if w.tasks = [] then [t] else w.tasks) := by
  rw [terminal_snoc, terminal, if_pos h]
  exact ⟨_, _, rfl, rfl, rfl, rfl, rfl, rfl⟩

/-- The numbers of the members of a chain. -/
theorem Chain.number {n : Int} : ∀ {ws : List Wp}, Chain n ws → ∀ k (hk : k < ws.length), (ws[k]).number = n + k
  | [], _, k, hk => by simp at hk
  | [w], h, k, hk => by
    rw [Chain] at h
    have : k = 0 := by simp at hk; omega
    subst this; simp [h]
  | w :: w' :: ws, h, k, hk => by
    cases k with
    | zero => simp [h.1]
    | succ k =>
      have := Chain.number h.2.2 k (by simp at hk ⊢; omega)
      simp only [List.getElem_cons_succ]
      rw [this]; push_cast; omega

theorem Chain.next_mem {n : Int} {l : List Wp} {y : Wp} (h : Chain n (l ++ [y])) (he : y.next = y.number) :
    ∀ w ∈ l ++ [y], ∃ u ∈ l ++ [y], w.next = u.number := by
  induction l generalizing n with
  | nil => intro w hw; rw [List.mem_singleton.mp hw]; exact ⟨y, List.mem_singleton.mpr rfl, he⟩
  | cons x l ih =>
    have hx : ∃ u ∈ l ++ [y], x.next = u.number := by
      cases l with
      | nil => exact ⟨y, List.mem_singleton.mpr rfl, h.2.1⟩
      | cons z l => exact ⟨z, by simp, h.2.1⟩
    have ht : Chain (n + 1) (l ++ [y]) := by
      cases l with
      | nil => exact h.2.2
      | cons z l => exact h.2.2
    intro w hw
    rcases List.mem_cons.mp hw with rfl | hw
    · obtain ⟨u, hu, e⟩ := hx; exact ⟨u, List.mem_cons_of_mem _ hu, e⟩
    · obtain ⟨u, hu, e⟩ := ih ht w hw; exact ⟨u, List.mem_cons_of_mem _ hu, e⟩

/-! ### Plans that end well -/

/-- The list is empty, or its last two waypoints are apart, and its last waypoint leads nowhere. -/
def EndsWell (near : Place → Place → Bool) (ws : List Wp) : Prop :=
  ws = [] ∨ ∃ pre x y, ws = pre ++ [x, y] ∧ near x.place y.place = false ∧ y.next = 0

/-- The same waypoints up to their numbers. -/
def SameBut (ws ws' : List Wp) : Prop := ws.map (fun w => { w with number := 0 }) = ws'.map (fun w => { w with number := 0 })

theorem sameBut_addAll (c : Config) (v : VConfig) (sb tr : Bool) (ws : List Wp) (a : Acc) :
    SameBut ws (a.addAll c v sb tr ws).2 := by
  induction ws generalizing a with
  | nil => rfl
  | cons w ws ih =>
    rw [SameBut, Acc.addAll]
    rw [List.map_cons, List.map_cons, ih (a.add c v sb tr w)]

theorem snoc2 {α : Type} (l : List α) : l = [] ∨ (∃ x, l = [x]) ∨ ∃ pre x y, l = pre ++ [x, y] := by
  induction l using snocRec with
  | nil => exact Or.inl rfl
  | append_singleton l y _ =>
    induction l using snocRec with
    | nil => exact Or.inr (Or.inl ⟨y, rfl⟩)
    | append_singleton l x _ => exact Or.inr (Or.inr ⟨l, x, y, by simp⟩)

theorem EndsWell.sameBut {near : Place → Place → Bool} {ws ws' : List Wp} (h : EndsWell near ws) (hs : SameBut ws ws') :
    EndsWell near ws' := by
  rcases h with rfl | ⟨pre, x, y, rfl, hn, h0⟩
  · refine Or.inl ?_
    cases ws' with
    | nil => rfl
    | cons _ _ => cases hs
  · rcases snoc2 ws' with rfl | ⟨z, rfl⟩ | ⟨pre', x', y', rfl⟩
    · rw [SameBut] at hs; simp at hs
    · rw [SameBut] at hs
      have := congrArg List.length hs
      simp at this
    · refine Or.inr ⟨pre', x', y', rfl, ?_, ?_⟩
      · rw [SameBut, List.map_append, List.map_append] at hs
        have := (List.append_inj' hs rfl).2
        simp only [List.map_cons, List.map_nil, List.cons.injEq, Wp.mk.injEq, and_true, true_and] at this
        rw [← this.1.2.1, ← this.2.2.1]; exact hn
      · rw [SameBut, List.map_append, List.map_append] at hs
        have := (List.append_inj' hs rfl).2
        simp only [List.map_cons, List.map_nil, List.cons.injEq, Wp.mk.injEq, and_true, true_and] at this
        rw [← this.2.1]; exact h0

/-- With two last waypoints `x`, `y`, what is taken up again is empty or ends in them. -/
theorem restartFrom_ends (n : Int) (pre : List Wp) (x y : Wp) (last : Option Wp) (f : Bool) :
    restartFrom n last f (pre ++ [x, y]) = [] ∨ ∃ p', restartFrom n last f (pre ++ [x, y]) = p' ++ [x, y] := by
  induction pre generalizing last f with
  | nil =>
    rw [List.nil_append]
    rw [restartFrom]
    have hy : ∀ g : Bool, (g = true → restartFrom n (some x) g [y] = [y] ∨ restartFrom n (some x) g [y] = [x, y]) ∧
        (g = false → restartFrom n (some x) g [y] = [] ∨ restartFrom n (some x) g [y] = [x, y]) := by
      intro g
      rw [restartFrom, restartFrom, restartFrom]
      split
      · exact ⟨fun _ => Or.inr rfl, fun _ => Or.inr rfl⟩
      · refine ⟨fun e => ?_, fun e => ?_⟩
        · subst e; exact Or.inl rfl
        · subst e; exact Or.inl rfl
    split
    · rcases (hy true).1 rfl with e | e
      · rw [e]; exact Or.inr ⟨last.toList, rfl⟩
      · rw [e]; exact Or.inr ⟨last.toList ++ [x], by simp⟩
    · split
      · rcases (hy true).1 rfl with e | e
        · rw [e]; exact Or.inr ⟨[], rfl⟩
        · rw [e]; exact Or.inr ⟨[x], rfl⟩
      · rcases (hy false).2 rfl with e | e
        · rw [e]; exact Or.inl rfl
        · rw [e]; exact Or.inr ⟨[], rfl⟩
  | cons z pre ih =>
    rw [List.cons_append, restartFrom]
    have sub : ∀ (l g : List Wp), g = [] ∨ (∃ p', g = p' ++ [x, y]) → g ≠ [] → ∃ p', l ++ g = p' ++ [x, y] := by
      rintro l g (rfl | ⟨p', rfl⟩) h
      · exact absurd rfl h
      · exact ⟨l ++ p', by simp⟩
    have ne : ∀ last', restartFrom n last' true (pre ++ [x, y]) ≠ [] := by
      intro last'
      cases pre with
      | nil => rw [List.nil_append, restartFrom]; split <;> simp
      | cons u pre => rw [List.cons_append, restartFrom]; split <;> simp
    split
    · obtain ⟨p', e⟩ := sub (last.toList ++ [z]) _ (ih (some z) true) (ne _)
      exact Or.inr ⟨p', by rw [← e]; simp⟩
    · split
      · obtain ⟨p', e⟩ := sub [z] _ (ih (some z) true) (ne _)
        exact Or.inr ⟨p', e⟩
      · exact ih (some z) false

theorem EndsWell.restart {near : Place → Place → Bool} {ws : List Wp} (h : EndsWell near ws) (n : Int) :
    EndsWell near (restartFrom n none false ws) := by
  rcases h with rfl | ⟨pre, x, y, rfl, hn, h0⟩
  · exact Or.inl rfl
  · rcases restartFrom_ends n pre x y none false with e | ⟨p', e⟩
    · exact Or.inl e
    · exact Or.inr ⟨p', x, y, e, hn, h0⟩

/-- The list collected is empty or its last waypoint leads nowhere. -/
def Open (a : Acc) : Prop := a.rev = [] ∨ ∃ w bs, a.rev = w :: bs ∧ w.next = 0

theorem add_place (c : Config) (v : VConfig) (sb tr : Bool) (a : Acc) (w : Wp) :
    ∃ b bs, (a.add c v sb tr w).rev = b :: bs ∧ b.place = w.place := by
  rw [Acc.add]
  dsimp only
  split
  · exact ⟨_, _, rfl, rfl⟩
  · split
    · exact ⟨_, _, rfl, rfl⟩
    · exact ⟨_, _, rfl, rfl⟩

theorem open_addAll {c : Config} (v : VConfig) (sb tr : Bool) {ws : List Wp} (hw : EndsWell c.near ws) {a : Acc}
    (h : Open a) : Open (a.addAll c v sb tr ws).1 := by
  rcases hw with rfl | ⟨pre, x, y, rfl, hn, h0⟩
  · exact h
  · clear h
    induction pre generalizing a with
    | nil =>
      rw [List.nil_append, Acc.addAll, Acc.addAll, Acc.addAll]
      dsimp only
      obtain ⟨b, bs, e, hp⟩ := add_place c v sb tr a x
      have hb : c.near b.place y.place = false := by rw [hp]; exact hn
      rw [Acc.add]
      dsimp only
      rw [e]
      dsimp only
      rw [hb]
      exact Or.inr ⟨_, _, rfl, h0⟩
    | cons z pre ih => exact ih

theorem open_plans {c : Config} (v : VConfig) (sb : Bool) (tr : Int) (rs : Option (List Wp))
    (hr : ∀ ws, rs = some ws → EndsWell c.near ws) {l : List (Int × RoutePlan)} (hl : ∀ p ∈ l, EndsWell c.near p.2.wps)
    {f : Bool} {a : Acc} (h : Open a) : Open (a.plans c v sb tr rs f l).1 := by
  induction l generalizing f a with
  | nil => exact h
  | cons x l ih =>
    obtain ⟨k, p⟩ := x
    rw [Acc.plans]
    dsimp only
    have hl' : ∀ p ∈ l, EndsWell c.near p.2.wps := fun p hp => hl p (List.mem_cons_of_mem _ hp)
    split
    · rename_i heq
      refine ih hl' (open_addAll v sb _ ?_ h)
      split
      · exact Or.inl rfl
      · split at heq
        · cases heq
        · exact hr _ heq
    · exact ih hl' (open_addAll v sb _ (hl (k, p) List.mem_cons_self) h)

end Verif.Task
