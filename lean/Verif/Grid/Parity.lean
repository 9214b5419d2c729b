import Verif.Grid.Model
import Mathlib.Tactic.SplitIfs
import Mathlib.Tactic.Positivity
import Mathlib.Tactic.NormNum

/-!
# Counting crossings

The even-odd rule, in exact numbers, for rays in four directions and for segments; that they agree for closed polygons.  Nothing here is in the code.
-/

namespace Verif.Grid

set_option linter.unusedSimpArgs false

/-- Twice the signed area of the triangle `a`, `b`, `p`. -/
def area (a b p : Pt) : ℚ := (b.x - a.x) * (p.y - a.y) - (b.y - a.y) * (p.x - a.x)

/-- The edge crosses the ray from `p` towards smaller `x` (an edge includes its lower end and not its upper end). -/
def crossL (p a b : Pt) : Bool :=
  (decide (p.y < a.y) != decide (p.y < b.y)) && decide (if a.y < b.y then area a b p < 0 else 0 < area a b p)

/-- The edge crosses the ray from `p` towards smaller `y` (an edge includes its left end and not its right end). -/
def crossB (p a b : Pt) : Bool :=
  (decide (p.x < a.x) != decide (p.x < b.x)) && decide (if a.x < b.x then 0 < area a b p else area a b p < 0)

/-- The point is on the edge. -/
def OnEdge (p a b : Pt) : Prop := ∃ s : ℚ, 0 ≤ s ∧ s ≤ 1 ∧ p.x = a.x + s * (b.x - a.x) ∧ p.y = a.y + s * (b.y - a.y)

/-- Parity of the edges with a property. -/
def parity (f : Pt → Pt → Bool) (es : List (Pt × Pt)) : Bool := es.foldr (fun e s => xor (f e.1 e.2) s) false

/-- **The even-odd rule**: the number of edges that a ray from the point towards smaller `x` crosses is odd. -/
def inside (vs : List Pt) (p : Pt) : Bool := parity (crossL p) (edges vs)

theorem parity_nil (f) : parity f [] = false := rfl

theorem parity_cons (f e es) : parity f (e :: es) = xor (f e.1 e.2) (parity f es) := rfl

theorem parity_xor (f g : Pt → Pt → Bool) (es) : parity (fun a b => xor (f a b) (g a b)) es = xor (parity f es) (parity g es) := by
  induction es with
  | nil => rfl
  | cons e es ih =>
      simp only [parity_cons, ih]
      cases f e.1 e.2 <;> cases g e.1 e.2 <;> cases parity f es <;> cases parity g es <;> rfl

theorem parity_congr {f g : Pt → Pt → Bool} {es} (h : ∀ e ∈ es, f e.1 e.2 = g e.1 e.2) : parity f es = parity g es := by
  induction es with
  | nil => rfl
  | cons e es ih =>
      rw [parity_cons, parity_cons, h e (by simp), ih (fun x hx => h x (by simp [hx]))]

theorem parity_false {f : Pt → Pt → Bool} {es} (h : ∀ e ∈ es, f e.1 e.2 = false) : parity f es = false := by
  induction es with
  | nil => rfl
  | cons e es ih => rw [parity_cons, h e (by simp), ih (fun x hx => h x (by simp [hx]))]; rfl

theorem parity_pairs (g : Pt → Bool) : ∀ (vs : List Pt) (u : Pt), parity (fun a b => xor (g a) (g b)) (pairs u vs) = xor (g u) (g ((u :: vs).getLast (by simp)))
  | [], u => by simp [pairs, parity_nil]
  | v :: vs, u => by
      rw [pairs, parity_cons, parity_pairs g vs v]
      simp only [List.getLast_cons_cons]
      cases g u <;> cases g v <;> simp

/-- Round a closed polygon, every change is undone. -/
theorem parity_closed (g : Pt → Bool) (vs : List Pt) : parity (fun a b => xor (g a) (g b)) (edges vs) = false := by
  cases vs with
  | nil => rfl
  | cons v vs =>
      show parity _ (pairs _ (v :: vs)) = false
      rw [parity_pairs]
      simp [List.getLast_cons_cons]

theorem area_shift (a b p : Pt) : area a b p = (a.x - p.x) * (b.y - p.y) - (a.y - p.y) * (b.x - p.x) := by
  unfold area; ring

/-- A point on the line of an edge, between the ends in one direction, is on the edge. -/
theorem onEdge_of_y {p a b : Pt} (h : area a b p = 0) (hy : (p.y < a.y) ≠ (p.y < b.y)) : OnEdge p a b := by
  have hne : b.y - a.y ≠ 0 := by
    intro h0; apply hy; have : a.y = b.y := by linarith
    rw [this]
  refine ⟨(p.y - a.y) / (b.y - a.y), ?_, ?_, ?_, ?_⟩
  · by_cases h1 : p.y < a.y
    · have h2 : ¬ p.y < b.y := fun h2 => hy (by simp [h1, h2])
      apply div_nonneg_of_nonpos <;> linarith
    · have h2 : p.y < b.y := by by_contra h2; exact hy (by simp [h1, h2])
      apply div_nonneg <;> linarith
  · by_cases h1 : p.y < a.y
    · have h2 : ¬ p.y < b.y := fun h2 => hy (by simp [h1, h2])
      rw [div_le_one_of_neg (by linarith)]; linarith
    · have h2 : p.y < b.y := by by_contra h2; exact hy (by simp [h1, h2])
      rw [div_le_one (by linarith)]; linarith
  · unfold area at h
    field_simp
    linarith
  · field_simp
    ring

theorem onEdge_of_x {p a b : Pt} (h : area a b p = 0) (hx : (p.x < a.x) ≠ (p.x < b.x)) : OnEdge p a b := by
  obtain ⟨s, h0, h1, h2, h3⟩ := @onEdge_of_y ⟨p.y, p.x⟩ ⟨a.y, a.x⟩ ⟨b.y, b.x⟩ (by unfold area at *; simp only; linarith) hx
  exact ⟨s, h0, h1, h3, h2⟩

/-- For a point that is not on an edge, the crossings of the two rays differ by the ends in the quadrant below and to the left of the point. -/
theorem cross_edge {p a b : Pt} (h : ¬ OnEdge p a b) :
    xor (crossL p a b) (crossB p a b) =
      xor (decide (a.x ≤ p.x ∧ a.y ≤ p.y)) (decide (b.x ≤ p.x ∧ b.y ≤ p.y)) := by
  have hY : (p.y < a.y) ≠ (p.y < b.y) → area a b p ≠ 0 := fun h1 h2 => h (onEdge_of_y h2 h1)
  have hX : (p.x < a.x) ≠ (p.x < b.x) → area a b p ≠ 0 := fun h1 h2 => h (onEdge_of_x h2 h1)
  have hs := area_shift a b p
  unfold crossL crossB
  simp only [← not_lt (a := p.x), ← not_lt (a := p.y)]
  by_cases h1 : p.x < a.x <;> by_cases h2 : p.y < a.y <;> by_cases h3 : p.x < b.x <;> by_cases h4 : p.y < b.y
  all_goals
    simp only [h1, h2, h3, h4, not_true_eq_false, not_false_eq_true, decide_true, decide_false, and_self, and_true, and_false, bne_self_eq_false, Bool.false_and, Bool.xor_false, Bool.false_xor, Bool.xor_self, Bool.true_xor,
      ne_eq, eq_self_iff_true, not_true, false_imp_iff, imp_true_iff, true_imp_iff, eq_iff_iff, iff_true, true_iff, iff_false, false_iff, Bool.bne_true, Bool.bne_false, Bool.true_bne, Bool.false_bne, Bool.not_true, Bool.not_false, Bool.true_and] at hX hY ⊢
  all_goals
    (try simp only [not_lt] at h1 h2 h3 h4)
  all_goals
    rcases lt_trichotomy (area a b p) 0 with h5 | h5 | h5
  all_goals first
    | exact absurd h5 hX
    | exact absurd h5 hY
    | (split_ifs <;> first
        | (exfalso; linarith)
        | (simp [h5, h5.le, not_lt.2 h5.le]; done)
        | (exfalso; nlinarith))

/-- For a closed polygon and a point on none of its edges, the rays to the left and downwards cross the same number of edges, up to an even number;
in any coordinates. -/
theorem left_eq_below (f : Pt → Pt) (vs : List Pt) (p : Pt) (h : ∀ e ∈ edges vs, e.1 ≠ e.2 → ¬ OnEdge (f p) (f e.1) (f e.2)) :
    parity (fun a b => crossL (f p) (f a) (f b)) (edges vs) = parity (fun a b => crossB (f p) (f a) (f b)) (edges vs) := by
  have h1 := parity_closed (fun q => decide ((f q).x ≤ (f p).x ∧ (f q).y ≤ (f p).y)) vs
  rw [← parity_congr (f := fun a b => xor (crossL (f p) (f a) (f b)) (crossB (f p) (f a) (f b))) (fun e he => by
    by_cases hne : e.1 = e.2
    · rw [hne]; simp [crossL, crossB]
    · exact cross_edge (h e he hne)), parity_xor] at h1
  revert h1
  cases parity (fun a b => crossL (f p) (f a) (f b)) (edges vs) <;> cases parity (fun a b => crossB (f p) (f a) (f b)) (edges vs) <;> simp

/-- The edge crosses the ray from `p` towards larger `x`, or goes through `p`. -/
def crossR (p a b : Pt) : Bool := xor (xor (decide (p.y < a.y)) (decide (p.y < b.y))) (crossL p a b)

/-- The edge crosses the ray from `p` towards larger `y`, or goes through `p`. -/
def crossT (p a b : Pt) : Bool := xor (xor (decide (p.x < a.x)) (decide (p.x < b.x))) (crossB p a b)

theorem right_eq_left (vs : List Pt) (p : Pt) : parity (crossR p) (edges vs) = parity (crossL p) (edges vs) := by
  have h1 := parity_xor (fun a b => xor (decide (p.y < a.y)) (decide (p.y < b.y))) (crossL p) (edges vs)
  rw [parity_closed (fun q => decide (p.y < q.y)) vs, Bool.false_xor] at h1
  exact h1

theorem above_eq_below (vs : List Pt) (p : Pt) : parity (crossT p) (edges vs) = parity (crossB p) (edges vs) := by
  have h1 := parity_xor (fun a b => xor (decide (p.x < a.x)) (decide (p.x < b.x))) (crossB p) (edges vs)
  rw [parity_closed (fun q => decide (p.x < q.x)) vs, Bool.false_xor] at h1
  exact h1

/-! ### Parts of an edge -/

/-- The point of an edge at a share of it. -/
def along (a b : Pt) (s : ℚ) : Pt := ⟨a.x + s * (b.x - a.x), a.y + s * (b.y - a.y)⟩

theorem along_zero (a b : Pt) : along a b 0 = a := by simp [along]

theorem along_one (a b : Pt) : along a b 1 = b := by
  cases a; cases b; simp [along]

theorem crossL_along {a b p : Pt} {s s' : ℚ} (h : s < s') :
    crossL p (along a b s) (along a b s') = ((decide (p.y < (along a b s).y) != decide (p.y < (along a b s').y)) &&
      decide (if a.y < b.y then area a b p < 0 else 0 < area a b p)) := by
  have h1 : area (along a b s) (along a b s') p = (s' - s) * area a b p := by simp only [area, along]; ring
  have h2 : ((along a b s).y < (along a b s').y) ↔ a.y < b.y := by
    simp only [along]
    constructor
    · intro h3; by_contra h4; nlinarith
    · intro h3; nlinarith
  have h3 : (s' - s) * area a b p < 0 ↔ area a b p < 0 := by
    constructor
    · intro h4; by_contra h5; nlinarith
    · intro h4; nlinarith
  have h4 : 0 < (s' - s) * area a b p ↔ 0 < area a b p := by
    constructor
    · intro h4; by_contra h5; nlinarith
    · intro h4; nlinarith
  unfold crossL
  simp only [h1, h2, h3, h4]

theorem crossL_add {a b p : Pt} {s m s' : ℚ} (h : s < m) (h' : m < s') :
    crossL p (along a b s) (along a b s') = xor (crossL p (along a b s) (along a b m)) (crossL p (along a b m) (along a b s')) := by
  rw [crossL_along (h.trans h'), crossL_along h, crossL_along h']
  generalize decide (p.y < (along a b s).y) = u
  generalize decide (p.y < (along a b m).y) = v
  generalize decide (p.y < (along a b s').y) = w
  cases u <;> cases v <;> cases w <;> simp

/-- Exchanging the coordinates. -/
def Pt.swap (p : Pt) : Pt := ⟨p.y, p.x⟩

theorem crossB_swap (p a b : Pt) : crossB p a b = crossL p.swap a.swap b.swap := by
  have h1 : area a.swap b.swap p.swap = - area a b p := by simp only [area, Pt.swap]; ring
  unfold crossB crossL
  rw [h1]
  simp only [Pt.swap, neg_lt_zero, neg_pos]
  congr

theorem along_swap (a b : Pt) (s : ℚ) : (along a b s).swap = along a.swap b.swap s := rfl

theorem crossB_along {a b p : Pt} {s s' : ℚ} (h : s < s') :
    crossB p (along a b s) (along a b s') = ((decide (p.x < (along a b s).x) != decide (p.x < (along a b s').x)) &&
      decide (if a.x < b.x then 0 < area a b p else area a b p < 0)) := by
  have h1 : area a.swap b.swap p.swap = - area a b p := by simp only [area, Pt.swap]; ring
  rw [crossB_swap, along_swap, along_swap, crossL_along h, h1]
  simp only [along, Pt.swap, neg_lt_zero, neg_pos]
  congr

theorem crossB_add {a b p : Pt} {s m s' : ℚ} (h : s < m) (h' : m < s') :
    crossB p (along a b s) (along a b s') = xor (crossB p (along a b s) (along a b m)) (crossB p (along a b m) (along a b s')) := by
  simp only [crossB_swap, along_swap]
  exact crossL_add h h'

theorem area_comm (a b p : Pt) : area b a p = - area a b p := by unfold area; ring

theorem crossL_comm (p a b : Pt) : crossL p a b = crossL p b a := by
  unfold crossL
  rw [area_comm a b p]
  rcases lt_trichotomy a.y b.y with h | h | h
  · simp only [if_pos h, if_neg (not_lt.2 h.le), Left.neg_pos_iff, bne_comm]
  · simp [h]
  · simp only [if_pos h, if_neg (not_lt.2 h.le), Left.neg_neg_iff, bne_comm]

theorem crossB_comm (p a b : Pt) : crossB p a b = crossB p b a := by
  rw [crossB_swap, crossB_swap, crossL_comm]

theorem OnEdge.comm {p a b : Pt} (h : OnEdge p a b) : OnEdge p b a := by
  obtain ⟨s, h0, h1, h2, h3⟩ := h
  exact ⟨1 - s, by linarith, by linarith, by rw [h2]; ring, by rw [h3]; ring⟩

theorem onEdge_iff (p a b : Pt) : OnEdge p a b ↔ ∃ s, 0 ≤ s ∧ s ≤ 1 ∧ p = along a b s := by
  constructor
  · rintro ⟨s, h0, h1, h2, h3⟩
    exact ⟨s, h0, h1, by cases p; simp only [along] at *; simp [h2, h3]⟩
  · rintro ⟨s, h0, h1, rfl⟩
    exact ⟨s, h0, h1, rfl, rfl⟩

/-! ### Slanted coordinates -/

/-- Moves points sideways in proportion to their height. -/
def shear (k : ℚ) (p : Pt) : Pt := ⟨p.x - k * p.y, p.y⟩

theorem area_shear (k : ℚ) (a b p : Pt) : area (shear k a) (shear k b) (shear k p) = area a b p := by
  simp only [area, shear]; ring

theorem crossL_shear (k : ℚ) (p a b : Pt) : crossL (shear k p) (shear k a) (shear k b) = crossL p a b := by
  unfold crossL
  rw [area_shear]
  rfl

theorem along_shear (k : ℚ) (a b : Pt) (s : ℚ) : shear k (along a b s) = along (shear k a) (shear k b) s := by
  simp only [shear, along, Pt.mk.injEq, and_true]; ring

theorem onEdge_shear {k : ℚ} {p a b : Pt} : OnEdge (shear k p) (shear k a) (shear k b) ↔ OnEdge p a b := by
  simp only [onEdge_iff, ← along_shear]
  constructor
  · rintro ⟨s, h0, h1, h2⟩
    refine ⟨s, h0, h1, ?_⟩
    simp only [shear, Pt.mk.injEq] at h2
    obtain ⟨h3, h4⟩ := h2
    rw [h4] at h3
    cases p
    simp only at *
    rw [Pt.mk.injEq] 
    exact ⟨by linarith, h4⟩
  · rintro ⟨s, h0, h1, rfl⟩
    exact ⟨s, h0, h1, rfl⟩

/-- The edge crosses the segment from `c` to `p`, counted in coordinates in which it is upright. -/
def crossS (c p a b : Pt) : Bool :=
  let k := (p.x - c.x) / (p.y - c.y)
  xor (crossB (shear k c) (shear k a) (shear k b)) (crossB (shear k p) (shear k a) (shear k b))

theorem crossS_add {a b c p : Pt} {s m s' : ℚ} (h : s < m) (h' : m < s') :
    crossS c p (along a b s) (along a b s') = xor (crossS c p (along a b s) (along a b m)) (crossS c p (along a b m) (along a b s')) := by
  unfold crossS
  simp only [along_shear]
  rw [crossB_add h h', crossB_add h h']
  generalize crossB _ _ _ = u
  generalize crossB _ _ _ = v
  generalize crossB _ _ _ = w
  generalize crossB _ _ _ = z
  cases u <;> cases v <;> cases w <;> cases z <;> rfl

theorem crossS_comm (c p a b : Pt) : crossS c p a b = crossS c p b a := by
  unfold crossS
  simp only [crossB_comm _ (shear _ a) (shear _ b)]

/-- Two points on no edge are on the same side up to the edges that cross the segment between them. -/
theorem segment_parity (vs : List Pt) (c p : Pt) (hc : ∀ e ∈ edges vs, e.1 ≠ e.2 → ¬ OnEdge c e.1 e.2)
    (hp : ∀ e ∈ edges vs, e.1 ≠ e.2 → ¬ OnEdge p e.1 e.2) :
    inside vs p = xor (inside vs c) (parity (crossS c p) (edges vs)) := by
  have h1 := left_eq_below (shear ((p.x - c.x) / (p.y - c.y))) vs c (fun e he hne h => hc e he hne (onEdge_shear.1 h))
  have h2 := left_eq_below (shear ((p.x - c.x) / (p.y - c.y))) vs p (fun e he hne h => hp e he hne (onEdge_shear.1 h))
  simp only [crossL_shear] at h1 h2
  have h3 := parity_xor (fun a b => crossB (shear ((p.x - c.x) / (p.y - c.y)) c) (shear ((p.x - c.x) / (p.y - c.y)) a) (shear ((p.x - c.x) / (p.y - c.y)) b))
    (fun a b => crossB (shear ((p.x - c.x) / (p.y - c.y)) p) (shear ((p.x - c.x) / (p.y - c.y)) a) (shear ((p.x - c.x) / (p.y - c.y)) b)) (edges vs)
  have h4 : parity (crossS c p) (edges vs) = xor (parity (fun a b => crossL c a b) (edges vs)) (parity (fun a b => crossL p a b) (edges vs)) := by
    rw [h1, h2, ← h3]
    rfl
  unfold inside
  rw [h4]
  show parity (fun a b => crossL p a b) _ = _
  generalize parity (fun a b => crossL p a b) _ = u
  show u = xor (parity (fun a b => crossL c a b) _) _
  generalize parity (fun a b => crossL c a b) _ = v
  cases u <;> cases v <;> rfl

end Verif.Grid
