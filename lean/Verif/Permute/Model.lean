import Verif.Common

/-!
# Going through all arrangements of a range in place

`src/cpp/Utilities/Permute.h` 34-51, 82-122, 240-359, 408-418, 471-486: `for_each_combination` and `for_each_permutation`.
A range is a list; the ranges that a function works on are separate lists, those it does not touch are left out.  The function
called for each arrangement returns `false` (as the only one in the code does), so the early returns are left out.  The other
algorithms of the file are not used and not modelled.
-/

namespace Verif.Permute

variable {α ω : Type}

/-- `rotate_discontinuous`, Permute.h 34-51. `std::swap_ranges` and `std::rotate` in the
first case, the swaps from behind and `std::rotate` in the second one. -/
def rotate (a b : List α) : List α × List α :=
  if a.length ≤ b.length then (b.take a.length, b.drop a.length ++ a)
  else
    let kept := a.take (a.length - b.length)
    (b ++ kept, a.drop (a.length - b.length))

/-- Permute.h 101, 112: `swap(*first1, *i2)`. -/
def swapHeads : List α → List α → List α × List α
  | x :: a, y :: b => (y :: a, x :: b)
  | a, b => (a, b)

/-- Permute.h 82-122: the array while combinations are formed: what lies before `first1`,
the range `[first1, last1)`, the range `[first2, last2)`, and what was done. -/
structure Res (α ω : Type) where
  pre : List α
  a : List α
  b : List α
  out : List ω

/-- Permute.h 94, 99, 115: `f()`: the function sees the whole range from the first
`first1` on and may rearrange it. -/
def call (f : List α → List α × List ω) (p a b : List α) : Res α ω :=
  let r := f (p ++ a)
  ⟨r.1.take p.length, r.1.drop p.length, b, r.2⟩

/-- The loops over `i2`, Permute.h 97-102 and 106-113; `b` begins at `i2`. -/
def scan (g : List α → List α → List α → Res α ω) : Nat → List α → List α → List α → Res α ω
  | 0, p, a, b => ⟨p, a, b, []⟩
  | n + 1, p, a, b =>
    let r := g p a b
    let s := swapHeads r.a r.b
    let t := scan g n r.pre s.1 s.2.tail
    ⟨t.pre, t.a, s.2.take 1 ++ t.b, r.out ++ t.out⟩

/-- Permute.h 115-121: the last call and the rotation; `top` is `d == 0`. -/
def finish (f : List α → List α × List ω) (top : Bool) (r : Res α ω) : Res α ω :=
  let s := call f r.pre r.a r.b
  if top then
    let t := rotate s.a s.b
    ⟨s.pre, t.1, t.2, r.out ++ s.out⟩
  else
    let t := rotate s.a s.b.tail
    ⟨s.pre, t.1, s.b.take 1 ++ t.2, r.out ++ s.out⟩

/-- `combine_discontinuous`, Permute.h 82-122, with `d1`. -/
def combine (f : List α → List α × List ω) : Nat → Bool → List α → List α → List α → Res α ω
  | 0, _, p, a, b => call f p a b
  | 1, top, p, a, b => if b.length = 0 then call f p a b else finish f top (scan (call f) b.length p a b)
  | n + 2, top, p, a, b =>
    if b.length = 0 then call f p a b
    else finish f top (scan (fun p a b =>
      let r := combine f (n + 1) false (p ++ a.take 1) (a.drop 1) b
      ⟨r.pre.take p.length, r.pre.drop p.length ++ r.a, r.b, r.out⟩) b.length p a b)

/-- Permute.h 255, 287: `swap` of two places of a range. -/
def swapAt (l : List α) (i j : Nat) : List α :=
  match l[i]?, l[j]? with
  | some x, some y => (l.set i y).set j x
  | _, _ => l

/-- The loop, Permute.h 281-288 and 345-352: `k` rounds are left, the next `p` is at place
`i`. -/
def permuteLoop (rec : List α → List α → List α × List ω) (p : List α) : Nat → Nat → List α → List α × List ω
  | 0, _, l => (l, [])
  | k + 1, i, l =>
    let r := rec (p ++ l.take 1) (l.drop 1)
    let t := permuteLoop rec p k (i + 1) (swapAt (l.take 1 ++ r.1.reverse) 0 i)
    (t.1, r.2 ++ t.2)

/-- `permute_`, Permute.h 240-290, for a part of the range; `p` is what lies before it. -/
def permuteIn (f : List α → ω) : Nat → List α → List α → List α × List ω
  | 0, p, l => (l, [f (p ++ l)])
  | 1, p, l => (l, [f (p ++ l)])
  | 2, p, l =>
    let l' := swapAt l 0 1
    (l', [f (p ++ l), f (p ++ l')])
  | 3, p, l =>
    let l₁ := swapAt l 1 2
    let l₂ := swapAt (swapAt l₁ 0 2) 1 2
    let l₃ := swapAt l₂ 1 2
    let l₄ := swapAt (swapAt l₃ 0 1) 1 2
    let l₅ := swapAt l₄ 1 2
    (l₅, [f (p ++ l), f (p ++ l₁), f (p ++ l₂), f (p ++ l₃), f (p ++ l₄), f (p ++ l₅)])
  | n + 4, p, l =>
    let r := permuteLoop (permuteIn f (n + 3)) p (n + 3) 1 l
    let s := permuteIn f (n + 3) (p ++ r.1.take 1) (r.1.drop 1)
    (r.1.take 1 ++ s.1, r.2 ++ s.2)

/-- `permute`, Permute.h 295-359. -/
def permute (f : List α → ω) (l : List α) : List α × List ω :=
  match l.length with
  | 0 => (l, [f l])
  | 1 => (l, [f l])
  | 2 =>
    let l' := swapAt l 0 1
    (swapAt l' 0 1, [f l, f l'])
  | 3 =>
    let l₁ := swapAt l 1 2
    let l₂ := swapAt (swapAt l₁ 0 2) 1 2
    let l₃ := swapAt l₂ 1 2
    let l₄ := swapAt (swapAt l₃ 0 1) 1 2
    let l₅ := swapAt l₄ 1 2
    (swapAt l₅ 0 2, [f l, f l₁, f l₂, f l₃, f l₄, f l₅])
  | n + 4 =>
    let r := permuteLoop (permuteIn f (n + 3)) [] (n + 3) 1 l
    let s := permuteIn f (n + 3) (r.1.take 1) (r.1.drop 1)
    ((r.1.take 1 ++ s.1).reverse, r.2 ++ s.2)

/-- `for_each_combination`, Permute.h 408-418, of `d` elements of the range: the range
afterwards and the calls. -/
def forEachCombination (f : List α → ω) (l : List α) (d : Nat) : List α × List ω :=
  let r := combine (fun a => (a, [f a])) d true [] (l.take d) (l.drop d)
  (r.pre ++ r.a ++ r.b, r.out)

/-- `for_each_permutation`, Permute.h 471-486. -/
def forEachPermutation (f : List α → ω) (l : List α) (d : Nat) : List α × List ω :=
  let r := combine (permute f) d true [] (l.take d) (l.drop d)
  (r.pre ++ r.a ++ r.b, r.out)

end Verif.Permute
