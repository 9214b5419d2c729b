import Verif.Permute.Model

/-!
# Every arrangement exactly once

The lists `combos` and `orders` say in which order the arrangements are visited; what is claimed of the visits
(`C91_...`) is said with `List.Sublist`, `List.Perm` and `List.Nodup` only.
-/

namespace Verif.Permute

variable {α ω : Type}

/-- The ways of taking `d` elements, in the order of the list. -/
def combos : Nat → List α → List (List α)
  | 0, _ => [[]]
  | _ + 1, [] => []
  | d + 1, x :: l => (combos d l).map (x :: ·) ++ combos (d + 1) l

/-- The ways of taking one element out of a list; `pre` has been passed. -/
def picks (pre : List α) : List α → List (α × List α)
  | [] => []
  | x :: l => (x, pre ++ l) :: picks (pre ++ [x]) l

/-- The orders of a list of `n` elements. -/
def orders : Nat → List α → List (List α)
  | 0, _ => [[]]
  | n + 1, l => (picks [] l).flatMap fun p => (orders n p.2).map (p.1 :: ·)

theorem flatMap_congr' {β γ : Type} {g g' : β → List γ} {l : List β} (h : ∀ x ∈ l, g x = g' x) : l.flatMap g = l.flatMap g' := by
  induction l with
  | nil => rfl
  | cons x l ih => rw [List.flatMap_cons, List.flatMap_cons, h x (by simp), ih fun y hy => h y (by simp [hy])]

theorem nodup_map {β γ : Type} {g : β → γ} {l : List β} (hg : ∀ a b, g a = g b → a = b) (h : l.Nodup) : (l.map g).Nodup := by
  rw [List.nodup_iff_pairwise_ne, List.pairwise_map]
  exact (List.nodup_iff_pairwise_ne.mp h).imp fun hne e => hne (hg _ _ e)

theorem nodup_flatMap {β γ : Type} {g : β → List γ} {l : List β} (h₁ : ∀ x ∈ l, (g x).Nodup)
    (h₂ : l.Pairwise fun a b => ∀ w ∈ g a, w ∉ g b) : (l.flatMap g).Nodup := by
  induction l with
  | nil => simp
  | cons x l ih =>
    obtain ⟨h₃, h₄⟩ := List.pairwise_cons.mp h₂
    rw [List.flatMap_cons, List.nodup_append]
    refine ⟨h₁ x (by simp), ih (fun y hy => h₁ y (by simp [hy])) h₄, ?_⟩
    intro a ha b hb e
    subst e
    obtain ⟨y, hy, hb⟩ := List.mem_flatMap.mp hb
    exact h₃ y hy a ha hb

theorem combos_short {d : Nat} {l : List α} (h : l.length < d) : combos d l = [] := by
  induction l generalizing d with
  | nil => cases d with
    | zero => simp at h
    | succ d => rfl
  | cons x l ih => cases d with
    | zero => simp at h
    | succ d =>
      simp only [List.length_cons] at h
      rw [combos, ih (by omega), ih (by omega)]; rfl

theorem combos_self (l : List α) : combos l.length l = [l] := by
  induction l with
  | nil => rfl
  | cons x l ih => rw [List.length_cons, combos, ih, combos_short (by omega)]; rfl

theorem mem_combos {d : Nat} {l c : List α} : c ∈ combos d l ↔ c.Sublist l ∧ c.length = d := by
  induction l generalizing d c with
  | nil => cases d with
    | zero => simp [combos]
    | succ d => simp [combos]; rintro rfl; simp
  | cons x l ih => cases d with
    | zero => simp [combos]; rintro rfl; simp
    | succ d =>
      simp only [combos, List.mem_append, List.mem_map, ih]
      constructor
      · rintro (⟨c, ⟨h₁, h₂⟩, rfl⟩ | ⟨h₁, h₂⟩)
        · exact ⟨h₁.cons_cons x, by simp [h₂]⟩
        · exact ⟨h₁.cons x, h₂⟩
      · rintro ⟨h₁, h₂⟩
        cases h₁ with
        | cons _ h => exact .inr ⟨h, h₂⟩
        | cons_cons _ h => exact .inl ⟨_, ⟨h, by simpa using h₂⟩, rfl⟩

theorem combos_nodup {d : Nat} {l : List α} (h : l.Nodup) : (combos d l).Nodup := by
  induction l generalizing d with
  | nil => cases d <;> simp [combos]
  | cons x l ih =>
    obtain ⟨hx, hl⟩ := List.nodup_cons.mp h
    cases d with
    | zero => simp [combos]
    | succ d =>
      rw [combos, List.nodup_append]
      refine ⟨nodup_map (by simp) (ih hl), ih hl, ?_⟩
      intro a ha b hb e
      subst e
      obtain ⟨c, -, rfl⟩ := List.mem_map.mp ha
      exact hx ((mem_combos.mp hb).1.subset (by simp))

theorem mem_picks {pre l r : List α} {y : α} : (y, r) ∈ picks pre l ↔ ∃ s t, l = s ++ y :: t ∧ r = pre ++ (s ++ t) := by
  induction l generalizing pre with
  | nil => simp [picks]
  | cons x l ih =>
    simp only [picks, List.mem_cons, ih, Prod.mk.injEq]
    constructor
    · rintro (⟨rfl, rfl⟩ | ⟨s, t, rfl, rfl⟩)
      · exact ⟨[], l, rfl, rfl⟩
      · exact ⟨x :: s, t, rfl, by simp⟩
    · rintro ⟨s, t, h, rfl⟩
      cases s with
      | nil => cases h; exact .inl ⟨rfl, rfl⟩
      | cons z s => cases h; exact .inr ⟨s, t, rfl, by simp⟩

theorem picks_fst (pre l : List α) : (picks pre l).map Prod.fst = l := by
  induction l generalizing pre with
  | nil => rfl
  | cons x l ih => simp [picks, ih]

theorem mem_orders {n : Nat} {l w : List α} (h : l.length = n) : w ∈ orders n l ↔ w.Perm l := by
  induction n generalizing l w with
  | zero => rw [List.length_eq_zero_iff] at h; subst h; simp [orders]
  | succ n ih =>
    simp only [orders, List.mem_flatMap, List.mem_map, Prod.exists]
    constructor
    · rintro ⟨y, r, hp, c, hc, rfl⟩
      obtain ⟨s, t, rfl, rfl⟩ := mem_picks.mp hp
      have := (ih (by simp at h ⊢; omega)).mp hc
      exact (this.cons y).trans (by rw [List.nil_append]; exact List.perm_middle.symm)
    · intro hw
      cases w with
      | nil => have := hw.length_eq; simp at this; omega
      | cons y w =>
        obtain ⟨s, t, rfl⟩ := List.append_of_mem (hw.mem_iff.mp (List.mem_cons_self ..))
        refine ⟨y, s ++ t, mem_picks.mpr ⟨s, t, rfl, rfl⟩, w, ?_, rfl⟩
        exact (ih (by simp at h ⊢; omega)).mpr ((hw.trans List.perm_middle).cons_inv)

theorem orders_nodup {n : Nat} {l : List α} (h : l.Nodup) : (orders n l).Nodup := by
  induction n generalizing l with
  | zero => simp [orders]
  | succ n ih =>
    rw [orders]
    refine nodup_flatMap ?_ ?_
    · rintro ⟨y, r⟩ hp
      obtain ⟨s, t, rfl, rfl⟩ := mem_picks.mp hp
      refine nodup_map (by simp) (ih ?_)
      rw [List.nil_append]
      exact h.sublist (List.Sublist.append_left (List.sublist_cons_self y t) s)
    · have : ((picks [] l).map Prod.fst).Nodup := by rw [picks_fst]; exact h
      rw [List.nodup_iff_pairwise_ne, List.pairwise_map] at this
      refine this.imp ?_
      rintro ⟨a, r⟩ ⟨b, r'⟩ hne w h₁ h₂
      obtain ⟨c, -, rfl⟩ := List.mem_map.mp h₁
      obtain ⟨c', -, e⟩ := List.mem_map.mp h₂
      cases e
      exact hne rfl

/-! ## The permutations of one range -/

theorem swap_place (x y : α) (pre post : List α) :
    swapAt (x :: (pre ++ y :: post)) 0 (pre.length + 1) = y :: (pre ++ x :: post) := by
  simp [swapAt]

theorem loop_eq {rec : List α → List α → List α × List ω} {n : Nat} (hr : ∀ q m, m.length = n → (rec q m).1 = m.reverse)
    (p : List α) : ∀ (post pre : List α) (x : α), pre.length + post.length = n →
      ∃ z m, (permuteLoop rec p post.length (pre.length + 1) (x :: (pre ++ post))).1 = z :: m ∧
        m ++ [z] = pre ++ x :: post ∧ m.length = n ∧
        (permuteLoop rec p post.length (pre.length + 1) (x :: (pre ++ post))).2 ++ (rec (p ++ [z]) m).2 =
          (picks pre (x :: post)).flatMap fun q => (rec (p ++ [q.1]) q.2).2
  | [], pre, x, hl => ⟨x, pre, by simp [permuteLoop], by simp, by simpa using hl, by simp [permuteLoop, picks]⟩
  | y :: post, pre, x, hl => by
    have e : swapAt ([x] ++ (rec (p ++ [x]) (pre ++ y :: post)).1.reverse) 0 (pre.length + 1) = y :: ((pre ++ [x]) ++ post) := by
      rw [hr _ _ (by simp at hl ⊢; omega), List.reverse_reverse, List.singleton_append, swap_place]; simp
    obtain ⟨z, m, h₁, h₂, h₃, h₄⟩ := loop_eq hr p post (pre ++ [x]) y (by simp at hl ⊢; omega)
    simp only [List.length_cons, permuteLoop, List.take_succ_cons, List.take_zero, List.drop_succ_cons, List.drop_zero, e]
    simp only [List.length_append, List.length_cons, List.length_nil, Nat.zero_add] at h₁ h₄
    refine ⟨z, m, h₁, by simpa using h₂, h₃, ?_⟩
    rw [List.append_assoc, h₄]
    simp [picks]

theorem permuteIn_eq (f : List α → ω) : ∀ (n : Nat) (p l : List α), l.length = n →
    permuteIn f n p l = (l.reverse, (orders n l).map fun w => f (p ++ w))
  | 0, p, [], _ => by simp [permuteIn, orders]
  | 1, p, [x], _ => by simp [permuteIn, orders, picks]
  | 2, p, [x, y], _ => by simp [permuteIn, orders, picks, swapAt]
  | 3, p, [x, y, z], _ => by simp [permuteIn, orders, picks, swapAt]
  | n + 4, p, x :: l, hl => by
    have hl : l.length = n + 3 := by simpa using hl
    have hr : ∀ q m, m.length = n + 3 → (permuteIn f (n + 3) q m).1 = m.reverse := fun q m hm => by
      rw [permuteIn_eq f (n + 3) q m hm]
    obtain ⟨z, m, h₁, h₂, h₃, h₄⟩ := loop_eq hr p l [] x (by simpa using hl)
    simp only [List.length_nil, List.nil_append, hl, Nat.zero_add] at h₁ h₂ h₄
    simp only [permuteIn, h₁, List.take_succ_cons, List.take_zero, List.drop_succ_cons, List.drop_zero, hr _ _ h₃, h₄]
    refine Prod.ext ?_ ?_
    · simp [← h₂]
    · have ho : orders (n + 4) (x :: l) = (picks [] (x :: l)).flatMap fun p => (orders (n + 3) p.2).map (p.1 :: ·) := rfl
      show List.flatMap _ _ = List.map _ (orders (n + 4) (x :: l))
      rw [ho, List.map_flatMap]
      refine flatMap_congr' ?_
      rintro ⟨y, r⟩ hy
      obtain ⟨s, t, e₁, rfl⟩ := mem_picks.mp hy
      have : ([] ++ (s ++ t)).length = n + 3 := by
        have := congrArg List.length e₁
        simp at this ⊢; omega
      simp only [permuteIn_eq f (n + 3) _ _ this]
      rw [List.map_map]
      refine List.map_congr_left fun w _ => ?_
      simp

/-- `permute` calls the function for every order of the range and leaves the range as it was. -/
theorem permute_eq (f : List α → ω) (l : List α) : permute f l = (l, (orders l.length l).map f) := by
  match l with
  | [] => simp [permute, orders]
  | [x] => simp [permute, orders, picks]
  | [x, y] => simp [permute, orders, picks, swapAt]
  | [x, y, z] => simp [permute, orders, picks, swapAt]
  | x :: y :: z :: u :: l =>
    have key := permuteIn_eq f (l.length + 4) [] (x :: y :: z :: u :: l) rfl
    simp only [permuteIn, List.nil_append] at key
    simp only [permute, List.length_cons]
    rw [Prod.ext_iff] at key
    simp only at key
    refine Prod.ext ?_ key.2
    simp only [key.1, List.reverse_reverse]

/-! ## The combinations -/

theorem rotate_eq (a b : List α) : rotate a b = ((b ++ a).take a.length, (b ++ a).drop a.length) := by
  rw [rotate]
  split
  · next h => rw [List.take_append_of_le_length h, List.drop_append_of_le_length h]
  · next h =>
    simp only [List.take_append, List.drop_append]
    rw [List.take_of_length_le (by omega : b.length ≤ a.length), List.drop_eq_nil_of_le (by omega : b.length ≤ a.length)]
    rfl

theorem call_eq {f : List α → List α × List ω} (hf : ∀ l, (f l).1 = l) (p a b : List α) :
    call f p a b = ⟨p, a, b, (f (p ++ a)).2⟩ := by simp [call, hf]

/-- What a round of the loop does: all ways to take `d` more elements are gone through, and the ranges are moved on by one. -/
def Round (f : List α → List α × List ω) (d : Nat) (g : List α → List α → List α → Res α ω) : Prop :=
  ∀ p x a b, a.length = d → b ≠ [] → g p (x :: a) b = ⟨p, x :: ((a ++ b).drop 1).take d, (a ++ b).take 1 ++ (a ++ b).drop (1 + d),
    (combos d (a ++ b)).flatMap fun c => (f (p ++ x :: c)).2⟩

theorem scan_eq {f : List α → List α × List ω} {d : Nat} {g : List α → List α → List α → Res α ω} (hg : Round f d g) :
    ∀ (n : Nat) (p : List α) (x : α) (a b : List α), a.length = d → b.length = n →
      ∃ out, scan g n p (x :: a) b = ⟨p, (x :: (a ++ b)).drop n, (x :: (a ++ b)).take n, out⟩ ∧
        out ++ (f (p ++ (x :: (a ++ b)).drop n)).2 = (combos (d + 1) (x :: (a ++ b))).flatMap fun c => (f (p ++ c)).2
  | 0, p, x, a, b, ha, hb => by
    rw [List.length_eq_zero_iff] at hb
    subst hb ha
    refine ⟨[], by simp [scan], ?_⟩
    have := combos_self (x :: a)
    simp only [List.length_cons] at this
    simp [this]
  | n + 1, p, x, a, b, ha, hb => by
    have hne : b ≠ [] := by rintro rfl; simp at hb
    obtain ⟨m, l, e⟩ : ∃ m l, a ++ b = m :: l := by
      cases h : a ++ b with
      | nil => simp at h; exact absurd h.2 hne
      | cons m l => exact ⟨m, l, rfl⟩
    have hl : l.length = d + n := by have := congrArg List.length e; simp at this; omega
    obtain ⟨out, h₁, h₂⟩ := scan_eq hg n p m (l.take d) (l.drop d) (by simp; omega) (by simp; omega)
    rw [List.take_append_drop] at h₁ h₂
    refine ⟨((combos d (m :: l)).flatMap fun c => (f (p ++ x :: c)).2) ++ out, ?_, ?_⟩
    · have e' : 1 + d = d + 1 := by omega
      simp only [scan, hg p x a b ha hne, e, e', swapHeads, List.drop_succ_cons, List.drop_zero, List.take_succ_cons,
        List.take_zero, List.singleton_append, List.tail_cons, h₁]
    · have hc : combos (d + 1) (x :: m :: l) = (combos d (m :: l)).map (x :: ·) ++ combos (d + 1) (m :: l) := rfl
      simp only [e, List.drop_succ_cons, List.append_assoc, h₂]
      rw [hc, List.flatMap_append, List.flatMap_map]

theorem finish_eq {f : List α → List α × List ω} (hf : ∀ l, (f l).1 = l) {d n : Nat} {p l : List α} {out : List ω}
    (hl : l.length = d + n) (hn : n ≠ 0) :
    finish f true ⟨p, l.drop n, l.take n, out⟩ = ⟨p, l.take d, l.drop d, out ++ (f (p ++ l.drop n)).2⟩ ∧
    finish f false ⟨p, l.drop n, l.take n, out⟩ = ⟨p, (l.drop 1).take d, l.take 1 ++ l.drop (1 + d), out ++ (f (p ++ l.drop n)).2⟩ := by
  have hd : (l.drop n).length = d := by simp; omega
  constructor
  · simp [finish, call_eq hf, rotate_eq, hd]
  · cases l with
    | nil => simp at hl; omega
    | cons x l =>
      obtain ⟨n, rfl⟩ : ∃ k, n = k + 1 := ⟨n - 1, by omega⟩
      have e' : 1 + d = d + 1 := by omega
      simp only [List.drop_succ_cons] at hd
      simp [finish, call_eq hf, rotate_eq, hd, e']

theorem round_combine {f : List α → List α × List ω} (hf : ∀ l, (f l).1 = l) (d : Nat) :
    Round f d (fun p a b =>
      let r := combine f d false (p ++ a.take 1) (a.drop 1) b
      ⟨r.pre.take p.length, r.pre.drop p.length ++ r.a, r.b, r.out⟩) ∧
    ∀ p a b, a.length = d → (combine f d true p a b) = ⟨p, a, b, (combos d (a ++ b)).flatMap fun c => (f (p ++ c)).2⟩ := by
  have main : ∀ d, (∀ p a b, a.length = d → b ≠ [] → combine f d false p a b =
        ⟨p, ((a ++ b).drop 1).take d, (a ++ b).take 1 ++ (a ++ b).drop (1 + d), (combos d (a ++ b)).flatMap fun c => (f (p ++ c)).2⟩) ∧
      ∀ p a b, a.length = d → (combine f d true p a b) = ⟨p, a, b, (combos d (a ++ b)).flatMap fun c => (f (p ++ c)).2⟩ := by
    have step : ∀ d g, Round f d g → (∀ top p a b, combine f (d + 1) top p a b =
        if b.length = 0 then call f p a b else finish f top (scan g b.length p a b)) →
        (∀ p a b, a.length = d + 1 → b ≠ [] → combine f (d + 1) false p a b =
          ⟨p, ((a ++ b).drop 1).take (d + 1), (a ++ b).take 1 ++ (a ++ b).drop (1 + (d + 1)),
            (combos (d + 1) (a ++ b)).flatMap fun c => (f (p ++ c)).2⟩) ∧
        ∀ p a b, a.length = d + 1 → (combine f (d + 1) true p a b) =
          ⟨p, a, b, (combos (d + 1) (a ++ b)).flatMap fun c => (f (p ++ c)).2⟩ := by
      intro d g hg hc
      constructor
      · intro p a b ha hb
        have hb' : b.length ≠ 0 := by rwa [ne_eq, List.length_eq_zero_iff]
        cases a with
        | nil => simp at ha
        | cons x a =>
          obtain ⟨out, h₁, h₂⟩ := scan_eq hg b.length p x a b (by simpa using ha) rfl
          rw [hc, if_neg hb', h₁, (finish_eq hf (d := d + 1) (by simp at ha ⊢; omega) hb').2, h₂]
          rfl
      · intro p a b ha
        rw [hc]
        split
        · next hb =>
          rw [List.length_eq_zero_iff] at hb
          subst hb
          have := combos_self a
          rw [ha] at this
          simp [call_eq hf, this]
        · next hb =>
          cases a with
          | nil => simp at ha
          | cons x a =>
            obtain ⟨out, h₁, h₂⟩ := scan_eq hg b.length p x a b (by simpa using ha) rfl
            rw [h₁, (finish_eq hf (d := d + 1) (by simp at ha ⊢; omega) hb).1, h₂]
            rw [← List.cons_append, List.take_append_of_le_length (by omega), List.drop_append_of_le_length (by omega),
              List.take_of_length_le (by omega), List.drop_eq_nil_of_le (by omega), List.nil_append]
    intro d
    induction d with
    | zero =>
      constructor
      · intro p a b ha hb
        rw [List.length_eq_zero_iff] at ha
        subst ha
        cases b with
        | nil => exact absurd rfl hb
        | cons y b => simp [combine, call_eq hf, combos]
      · intro p a b ha
        rw [List.length_eq_zero_iff] at ha
        subst ha
        simp [combine, call_eq hf, combos]
    | succ d ih =>
      cases d with
      | zero =>
        refine step 0 (call f) ?_ (fun top p a b => rfl)
        intro p x a b ha hb
        rw [List.length_eq_zero_iff] at ha
        subst ha
        cases b with
        | nil => exact absurd rfl hb
        | cons y b => simp [call_eq hf, combos]
      | succ d =>
        refine step (d + 1) _ ?_ (fun top p a b => rfl)
        intro p x a b ha hb
        simp only [List.take_succ_cons, List.take_zero, List.drop_succ_cons, List.drop_zero, ih.1 (p ++ [x]) a b ha hb]
        simp
  refine ⟨?_, (main d).2⟩
  intro p x a b ha hb
  simp only [List.take_succ_cons, List.take_zero, List.drop_succ_cons, List.drop_zero, (main d).1 (p ++ [x]) a b ha hb]
  simp

/-! ## The claims -/

theorem forEachCombination_eq (f : List α → ω) {l : List α} {d : Nat} (hd : d ≤ l.length) :
    forEachCombination f l d = (l, (combos d l).map f) := by
  have := (round_combine (f := fun a => (a, [f a])) (fun _ => rfl) d).2 [] (l.take d) (l.drop d) (by simp; omega)
  simp only [forEachCombination, this, List.take_append_drop, List.nil_append]
  rw [List.map_eq_flatMap]

theorem forEachPermutation_eq (f : List α → ω) {l : List α} {d : Nat} (hd : d ≤ l.length) :
    forEachPermutation f l d = (l, (combos d l).flatMap fun c => (orders d c).map f) := by
  have := (round_combine (f := permute f) (fun l => by rw [permute_eq]) d).2 [] (l.take d) (l.drop d) (by simp; omega)
  simp only [forEachPermutation, this, List.take_append_drop, List.nil_append]
  refine Prod.ext rfl ?_
  refine flatMap_congr' fun c hc => ?_
  rw [permute_eq, (mem_combos.mp hc).2]

/-- The number of ways to arrange `d` of `n` things. -/
def arrangements : Nat → Nat → Nat
  | _, 0 => 1
  | n, d + 1 => n * arrangements (n - 1) d

theorem arrangements_succ (n d : Nat) : arrangements (n + 1) d = arrangements n d + d * arrangements n (d - 1) := by
  induction d generalizing n with
  | zero => simp [arrangements]
  | succ d ih =>
    cases n with
    | zero =>
      cases d with
      | zero => simp [arrangements]
      | succ d => cases d <;> simp [arrangements]
    | succ n =>
      have h := ih n
      simp only [arrangements, Nat.add_sub_cancel] at h ⊢
      rw [Nat.add_mul, Nat.one_mul]
      cases d with
      | zero => simp [arrangements]
      | succ d =>
        simp only [arrangements, Nat.add_sub_cancel] at h ⊢
        rw [h]
        generalize arrangements (n - 1) d = A at *
        generalize arrangements n d = B at *
        grind

theorem orders_length {n : Nat} {l : List α} (h : l.length = n) : (orders n l).length = arrangements n n := by
  induction n generalizing l with
  | zero => rfl
  | succ n ih =>
    have : ∀ q : List (α × List α), (∀ p ∈ q, p.2.length = n) →
        (q.flatMap fun p => (orders n p.2).map (p.1 :: ·)).length = q.length * arrangements n n := by
      intro q hq
      induction q with
      | nil => simp
      | cons p q ihq =>
        rw [List.flatMap_cons, List.length_append, ihq fun x hx => hq x (by simp [hx]), List.length_map, ih (hq p (by simp)),
          List.length_cons, Nat.succ_mul, Nat.add_comm]
    rw [orders, this]
    · have := congrArg List.length (picks_fst [] l)
      simp only [List.length_map] at this
      rw [this, h]; simp [arrangements]
    · rintro ⟨y, r⟩ hp
      obtain ⟨s, t, rfl, rfl⟩ := mem_picks.mp hp
      simp at h ⊢; omega

theorem visits_length (d : Nat) (l : List α) : ((combos d l).flatMap fun c => orders d c).length = arrangements l.length d := by
  have key : ∀ d (l : List α), ((combos d l).flatMap fun c => orders d c).length = (combos d l).length * arrangements d d := by
    intro d l
    have : ∀ q : List (List α), (∀ c ∈ q, c.length = d) → (q.flatMap fun c => orders d c).length = q.length * arrangements d d := by
      intro q hq
      induction q with
      | nil => simp
      | cons c q ih =>
        rw [List.flatMap_cons, List.length_append, ih fun x hx => hq x (by simp [hx]), orders_length (hq c (by simp)),
          List.length_cons, Nat.succ_mul, Nat.add_comm]
    exact this _ fun c hc => (mem_combos.mp hc).2
  rw [key]
  induction l generalizing d with
  | nil => cases d <;> simp [combos, arrangements]
  | cons x l ih =>
    cases d with
    | zero => simp [combos, arrangements]
    | succ d =>
      have h₁ := ih (d + 1)
      have h₂ := ih d
      rw [combos, List.length_append, List.length_map, Nat.add_mul, h₁, List.length_cons, arrangements_succ l.length (d + 1),
        Nat.add_sub_cancel, ← h₂]
      simp only [arrangements, Nat.add_sub_cancel]
      grind

/-- `for_each_permutation` calls its function for every arrangement of `d` elements of the range, and leaves the range as it
was.  The number of calls is that of the arrangements, also when elements are equal. -/
theorem C91_every (f : List α → ω) {l : List α} {d : Nat} (hd : d ≤ l.length) :
    ∃ ws : List (List α), forEachPermutation f l d = (l, ws.map f) ∧ ws.length = arrangements l.length d ∧
      ∀ w, w ∈ ws ↔ ∃ c, c.Sublist l ∧ c.length = d ∧ w.Perm c := by
  refine ⟨(combos d l).flatMap fun c => orders d c, ?_, visits_length d l, ?_⟩
  · rw [forEachPermutation_eq f hd, List.map_flatMap]
  · intro w
    simp only [List.mem_flatMap]
    constructor
    · rintro ⟨c, hc, hw⟩
      obtain ⟨h₁, h₂⟩ := mem_combos.mp hc
      exact ⟨c, h₁, h₂, (mem_orders h₂).mp hw⟩
    · rintro ⟨c, h₁, h₂, h₃⟩
      exact ⟨c, mem_combos.mpr ⟨h₁, h₂⟩, (mem_orders h₂).mpr h₃⟩

theorem sublist_of_subset [DecidableEq α] {l w : List α} (hl : l.Nodup) (hw : w.Nodup) (hs : ∀ x ∈ w, x ∈ l) :
    (l.filter (· ∈ w)).Sublist l ∧ w.Perm (l.filter (· ∈ w)) := by
  refine ⟨List.filter_sublist, ?_⟩
  rw [List.perm_ext_iff_of_nodup hw (hl.sublist List.filter_sublist)]
  intro x
  simp only [List.mem_filter, decide_eq_true_eq]
  exact ⟨fun h => ⟨hs x h, h⟩, fun h => h.2⟩

/-- When the elements of the range are different, each choice and order of `d` of them is visited exactly once. -/
theorem C91_once [DecidableEq α] (f : List α → ω) {l : List α} {d : Nat} (hd : d ≤ l.length) (hl : l.Nodup) :
    ∃ ws : List (List α), forEachPermutation f l d = (l, ws.map f) ∧ ws.Nodup ∧
      ∀ w, w ∈ ws ↔ w.Nodup ∧ w.length = d ∧ ∀ x ∈ w, x ∈ l := by
  refine ⟨(combos d l).flatMap fun c => orders d c, ?_, ?_, ?_⟩
  · rw [forEachPermutation_eq f hd, List.map_flatMap]
  · refine nodup_flatMap (fun c hc => orders_nodup (hl.sublist (mem_combos.mp hc).1)) ?_
    refine (List.nodup_iff_pairwise_ne.mp (combos_nodup (d := d) hl)).imp_of_mem ?_
    intro a b ha hb hne w h₁ h₂
    obtain ⟨a₁, a₂⟩ := mem_combos.mp ha
    obtain ⟨b₁, b₂⟩ := mem_combos.mp hb
    have hab : a.Perm b := ((mem_orders a₂).mp h₁).symm.trans ((mem_orders b₂).mp h₂)
    apply hne
    have key : ∀ {l a : List α}, l.Nodup → a.Sublist l → a = l.filter (· ∈ a) := by
      intro l a hl ha
      induction ha with
      | slnil => rfl
      | @cons a l x h ih =>
        obtain ⟨hx, hl⟩ := List.nodup_cons.mp hl
        rw [List.filter_cons, if_neg (by simpa using fun hxa => hx (h.subset hxa))]
        exact ih hl
      | @cons_cons a l x h ih =>
        obtain ⟨hx, hl⟩ := List.nodup_cons.mp hl
        rw [List.filter_cons, if_pos (by simp)]
        congr 1
        refine (ih hl).trans (List.filter_congr fun y hy => ?_)
        have : y ≠ x := by rintro rfl; exact hx hy
        simp [this]
    rw [key hl a₁, key hl b₁]
    exact List.filter_congr fun y _ => by simp [hab.mem_iff]
  · intro w
    simp only [List.mem_flatMap]
    constructor
    · rintro ⟨c, hc, hw⟩
      obtain ⟨h₁, h₂⟩ := mem_combos.mp hc
      have hp := (mem_orders h₂).mp hw
      exact ⟨hp.nodup_iff.mpr (hl.sublist h₁), hp.length_eq.trans h₂, fun x hx => h₁.subset (hp.mem_iff.mp hx)⟩
    · rintro ⟨h₁, h₂, h₃⟩
      obtain ⟨s, p⟩ := sublist_of_subset hl h₁ h₃
      have hlen := p.length_eq.symm.trans h₂
      exact ⟨_, mem_combos.mpr ⟨s, hlen⟩, (mem_orders hlen).mpr p⟩

/-- `for_each_combination` calls its function once for every choice of `d` places, with the elements in the order of the
range, and leaves the range as it was. -/
theorem C91_combinations (f : List α → ω) {l : List α} {d : Nat} (hd : d ≤ l.length) :
    ∃ cs : List (List α), forEachCombination f l d = (l, cs.map f) ∧ (∀ c, c ∈ cs ↔ c.Sublist l ∧ c.length = d) ∧ (l.Nodup → cs.Nodup) :=
  ⟨combos d l, forEachCombination_eq f hd, fun _ => mem_combos, fun h => combos_nodup h⟩

example : forEachPermutation id [1, 2, 3] 2 = ([1, 2, 3], [[1, 2], [2, 1], [1, 3], [3, 1], [2, 3], [3, 2]]) := by decide
example : forEachCombination id [1, 2, 3, 4] 2 = ([1, 2, 3, 4], [[1, 2], [1, 3], [1, 4], [2, 3], [2, 4], [3, 4]]) := by decide
example : (forEachPermutation id [1, 2, 3, 4, 5] 5).2.length = 120 := by decide +kernel

end Verif.Permute
