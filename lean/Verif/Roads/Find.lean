/-
The route between two points used for planning, in terms of the roads.
-/
import Verif.Roads.Maps

namespace Verif.Roads

open Verif.Visibility (Edge Link Walk Reach back)

/-- The list of points is a piece of a road, taken one way or the other, between two
points used for planning and with none between them. -/
def RoadPiece (ways : List Way) (p : List Id) (a b : Id) : Prop :=
  (∃ w ∈ ways, w.highway = true ∧ (p <:+: w.nodes ∨ p <:+: w.nodes.reverse)) ∧
    Planned ways a ∧ Planned ways b ∧ ∃ mid, p = a :: (mid ++ [b]) ∧ ∀ x ∈ mid, ¬ Planned ways x

/-- A drive from `a` along pieces of roads: the points used for planning on the way,
and the sum of the lengths of the pieces in whole metres. -/
inductive Drive (ways : List Way) (P : Id → Pt) (a : Id) : Id → List Id → Nat → Prop
  | here : Drive ways P a a [a] 0
  | step {b c : Id} {l p : List Id} {m : Nat} : Drive ways P a b l m → RoadPiece ways p b c →
      Drive ways P a c (l ++ [c]) (m + ⌊roadLen P p⌋₊)

theorem vertices_spec : ∀ (E : List Edge) (n : Nat), n ≤ vertices n E ∧
    ∀ g ∈ E, g.a < vertices n E ∧ g.b < vertices n E := by
  intro E
  induction E with
  | nil => intro n; exact ⟨Nat.le_refl _, fun g hg => by cases hg⟩
  | cons g E ih =>
    intro n
    obtain ⟨h₁, h₂⟩ := ih (max n (max (g.a + 1) (g.b + 1)))
    have e : vertices n (g :: E) = vertices (max n (max (g.a + 1) (g.b + 1))) E := rfl
    rw [e]
    refine ⟨by omega, fun g' hg => ?_⟩
    rcases List.mem_cons.mp hg with rfl | hg
    · omega
    · exact h₂ g' hg

section
variable {o : Order} {ways : List Way} {els : List NodeEl} {M : RoadMap}

theorem edges_in (hM : build o ways els = .ok M) : ∀ g ∈ M.edges, g.a < M.size ∧ g.b < M.size := by
  obtain ⟨-, -, st, -, -, hs⟩ := build_parts hM
  rw [hs]
  exact (vertices_spec _ _).2

theorem ids_of_ix (hM : build o ways els = .ok M) {x : Id} {i : Nat} (h : M.pts.ix x = some i) :
    M.pts.ids i = some x := by
  obtain ⟨e, -⟩ := build_parts hM
  rw [e] at h ⊢
  exact (loadInv _ els).ix x i h

theorem ix_of_ids (h : Whole ways els) (hM : build o ways els = .ok M) {x : Id} {i : Nat}
    (hi : M.pts.ids i = some x) : M.pts.ix x = some i := by
  obtain ⟨e, -⟩ := build_parts hM
  rw [e] at hi ⊢
  exact ((loadInv _ els).tidy h.placed).2.2 i x hi

theorem link_piece (h : Whole ways els) (hM : build o ways els = .ok M) {i j k : Nat}
    (hl : Link M.edges i j k) : ∃ a b p, M.pts.ids i = some a ∧ M.pts.ids j = some b ∧
      RoadPiece ways p a b ∧ ⌊roadLen (posOf M.pts.pos) p⌋₊ ≤ k := by
  obtain ⟨a, b, p, hi, hj, ha, hb, hw, hm, hle⟩ := (C155_length_partial h hM).2 i j k hl
  exact ⟨a, b, p, ids_of_ix hM hi, ids_of_ix hM hj, ⟨hw, ha, hb, hm⟩, hle⟩

theorem walk_drive (h : Whole ways els) (hM : build o ways els = .ok M) {u v w : Nat}
    {l : List Nat} {a : Id} (hu : M.pts.ids u = some a) (hw : Walk M.edges u v l w) :
    ∃ b m k, M.pts.ids v = some b ∧ l.map M.pts.ids = m.map some ∧
      Drive ways (posOf M.pts.pos) a b m k ∧ k ≤ w := by
  induction hw with
  | here => exact ⟨a, [a], 0, hu, by simp [hu], .here, Nat.le_refl _⟩
  | step _ hl ih =>
    obtain ⟨b, m, k, hb, hm, hd, hk⟩ := ih
    obtain ⟨b', c, p, hb', hc, hp, hle⟩ := link_piece h hM hl
    rw [hb] at hb'
    cases hb'
    exact ⟨c, m ++ [c], _, hc, by simp [hm, hc], .step hd hp, Nat.add_le_add hk hle⟩

/-- A piece is at least as long as the straight line between its ends. -/
theorem piece_far {P : Id → Pt} {p : List Id} {a b : Id} (hp : RoadPiece ways p a b) :
    dist (P a) (P b) ≤ roadLen P p := by
  obtain ⟨-, -, -, mid, rfl, -⟩ := hp
  exact dist_le_roadLen P mid a b

theorem drive_far {P : Id → Pt} {a b : Id} {l : List Id} {m : Nat} (hd : Drive ways P a b l m) :
    (a = b ∧ l.length = 1 ∧ m = 0) ∨ (2 ≤ l.length ∧ dist (P a) (P b) < m + (l.length - 1 : ℝ)) := by
  induction hd with
  | here => exact .inl ⟨rfl, rfl, rfl⟩
  | @step b c l p m _ hp ih =>
    right
    have h₁ := piece_far (P := P) hp
    have h₂ := Nat.lt_floor_add_one (roadLen P p)
    rw [List.length_append, List.length_singleton]
    push_cast
    rcases ih with ⟨rfl, e, rfl⟩ | ⟨h₂', h₃⟩
    · rw [e]
      refine ⟨by omega, ?_⟩
      push_cast
      linarith
    · refine ⟨by omega, ?_⟩
      have := dist_triangle (P a) (P b) (P c)
      linarith

theorem posOf_some {pos : Id → Option Pt} {x : Id} {q : Pt} (h : pos x = some q) :
    posOf pos x = q := by
  unfold posOf; rw [h]; rfl

/-- The estimate is at most one metre per piece (but the first) too long. -/
theorem estimate_le (h : Whole ways els) (hM : build o ways els = .ok M) {b : Id} {g : Nat} {q : Pt}
    (hg : M.pts.ids g = some b) (hq : M.pts.pos b = some q) {x w : Nat} {l : List Nat}
    (hx : M.pts.ids x ≠ none) (hw : Walk M.edges x g l w) :
    estimate M.pts q x ≤ w + (l.length - 2) := by
  obtain ⟨a, ha⟩ := Option.ne_none_iff_exists'.mp hx
  obtain ⟨b', m, k, hb', hm, hd, hk⟩ := walk_drive h hM ha hw
  rw [hg] at hb'
  cases hb'
  have hlen : l.length = m.length := by simpa using congrArg List.length hm
  have hpa : ∃ r, M.pts.pos a = some r := by
    obtain ⟨e, -⟩ := build_parts hM
    refine Option.ne_none_iff_exists'.mp ?_
    rw [e] at ha ⊢
    exact ((loadInv _ els).tidy h.placed).2.1 a ((loadInv _ els).ids x a ha).1
  obtain ⟨r, hr⟩ := hpa
  unfold estimate
  rw [ha, Option.bind_some, hr]
  dsimp only
  have hd' := drive_far hd
  rw [posOf_some hr, posOf_some hq, ← hlen] at hd'
  rw [dist_comm q r]
  rcases hd' with ⟨rfl, -, -⟩ | ⟨h₂, hlt⟩
  · rw [hr] at hq
    cases hq
    rw [dist_self, Nat.floor_zero]
    exact Nat.zero_le _
  · have : (⌊dist r q⌋₊ : ℝ) ≤ dist r q := Nat.floor_le (Real.sqrt_nonneg _)
    have hkw : (k : ℝ) ≤ w := by exact_mod_cast hk
    have : (⌊dist r q⌋₊ : ℝ) < w + (l.length - 1 : ℝ) := by linarith
    have e : (l.length - 1 : ℝ) = ((l.length - 1 : Nat) : ℝ) := by
      rw [Nat.cast_sub (by omega)]; simp
    rw [e] at this
    have : ⌊dist r q⌋₊ < w + (l.length - 1) := by exact_mod_cast this
    omega

/-- What is looked up before the search. -/
theorem shortest_parts {c : Chooser} {a b : Id} {r : Option (Nat × List Id)}
    (hr : shortest M c a b = .ok r) {s g : Nat} {q : Pt} (hs : M.pts.ix a = some s)
    (hg : M.pts.ix b = some g) (hq : M.pts.pos b = some q) : s < M.size ∧ g < M.size := by
  unfold shortest at hr
  rw [hs, hg, hq] at hr
  dsimp only at hr
  by_contra hn
  rw [if_neg hn] at hr
  cases hr

/-- **C157.**  A route that is found goes from the first point to the second along pieces
of roads, and what is given as its length is not less than the sum of the lengths of
the pieces in whole metres. -/
theorem C157_route {c : Chooser} (h : Whole ways els) (hM : build o ways els = .ok M) {a b : Id}
    {k : Nat} {l : List Id} (hr : shortest M c a b = .ok (some (k, l))) :
    ∃ m, Drive ways (posOf M.pts.pos) a b l m ∧ m ≤ k := by
  have hr₀ := hr
  unfold shortest at hr
  split at hr
  · rename_i s g q hs hg hq
    rw [if_pos (shortest_parts hr₀ hs hg hq)] at hr
    split at hr
    · rename_i t ht
      obtain ⟨h₁, h₂, -⟩ := astar_found (edges_in hM) (shortest_parts hr₀ hs hg hq).1 ht
      obtain ⟨j, hj, hb⟩ := h₁.toInv.depth h₂
      have hid : ∀ v, t.d v < inf → (M.pts.ids v).isSome := by
        intro v hv
        by_cases e : v = s
        · rw [e, ids_of_ix hM hs]; rfl
        · obtain ⟨-, k', hl, -⟩ := h₁.tree v hv e
          obtain ⟨-, b', -, -, hb', -⟩ := link_piece h hM hl
          rw [hb']; rfl
      obtain ⟨l', w, m, hw, hle, hm, htr⟩ := trace_walk h₁.toInv hid j g M.size [] h₂ hb hj
      rw [htr, List.append_nil] at hr
      dsimp only at hr
      cases hr
      obtain ⟨b', m', k', hb', hm', hd, hk⟩ := walk_drive h hM (ids_of_ix hM hs) hw
      rw [ids_of_ix hM hg] at hb'
      cases hb'
      have : m' = l := by
        have := hm'.symm.trans hm
        exact List.map_injective_iff.mpr (Option.some_injective _) this
      rw [this] at hd
      exact ⟨k', hd, hk.trans hle⟩
    · cases hr
    · cases hr
  · cases hr

/-- **C157, in part.**  The length given is longer than that of any way through the graph
by at most one metre for every piece of that way but the first. -/
theorem C157_short_partial {c : Chooser} (h : Whole ways els) (hM : build o ways els = .ok M)
    {a b : Id} {k : Nat} {l : List Id} (hr : shortest M c a b = .ok (some (k, l))) {s g : Nat}
    (hs : M.pts.ix a = some s) (hg : M.pts.ix b = some g) {l' : List Nat} {w : Nat}
    (hw : Walk M.edges s g l' w) : k ≤ w + (l'.length - 2) := by
  have hr₀ := hr
  unfold shortest at hr
  rw [hs, hg] at hr
  cases hq : M.pts.pos b with
  | none => rw [hq] at hr; cases hr
  | some q =>
    rw [hq] at hr
    dsimp only at hr
    rw [if_pos (shortest_parts hr₀ hs hg hq)] at hr
    split at hr
    · rename_i t ht
      obtain ⟨h₁, h₂, h₃⟩ := astar_found (edges_in hM) (shortest_parts hr₀ hs hg hq).1 ht
      split at hr
      · cases hr
        by_cases hlt : w < inf
        · refine h₃ (fun x lx wx hwx => ?_) l' w hw hlt
          by_cases hx : M.pts.ids x = none
          · cases hwx with
            | here => rw [ids_of_ix hM hg] at hx; cases hx
            | step hw' hl =>
              exfalso
              have : ∀ {v l w}, Walk M.edges x v l w → v ≠ x → False := by
                intro v l w hw'
                induction hw' with
                | here => intro hne; exact hne rfl
                | @step v y _ _ _ _ hl ih =>
                  intro _
                  by_cases e : v = x
                  · subst e
                    obtain ⟨a', -, -, ha', -⟩ := link_piece h hM hl
                    rw [hx] at ha'; cases ha'
                  · exact ih e
              refine this (.step hw' hl) ?_
              rintro rfl
              rw [ids_of_ix hM hg] at hx; cases hx
          · exact estimate_le h hM (ids_of_ix hM hg) hq hx hwx
        · omega
      · cases hr
    · cases hr
    · cases hr

/-- **C157, in part.**  When no route is found between two points used for planning, every
way through the graph is longer than lengths can be (2³¹ − 1 metres). -/
theorem C157_none_partial {c : Chooser} (h : Whole ways els) (hM : build o ways els = .ok M)
    {a b : Id} (ha : Planned ways a) (hb : Planned ways b) (hr : shortest M c a b = .ok none) :
    ∃ s g, M.pts.ix a = some s ∧ M.pts.ix b = some g ∧
      ∀ l w, Walk M.edges s g l w → inf ≤ w := by
  obtain ⟨e, -⟩ := build_parts hM
  have ixOf : ∀ x, Planned ways x → ∃ i, M.pts.ix x = some i := by
    intro x hx
    refine Option.ne_none_iff_exists'.mp ?_
    rw [e]
    exact (loadInv _ els).has x (h.planning.mpr hx)
  obtain ⟨s, hs⟩ := ixOf a ha
  obtain ⟨g, hg⟩ := ixOf b hb
  obtain ⟨q, hq⟩ := Option.ne_none_iff_exists'.mp (h.pos (planned_onRoads hb))
  rw [← e] at hq
  refine ⟨s, g, hs, hg, ?_⟩
  have hr₀ := hr
  unfold shortest at hr
  rw [hs, hg, hq] at hr
  dsimp only at hr
  have hsz := shortest_parts hr₀ hs hg hq
  rw [if_pos hsz] at hr
  split at hr
  · rename_i t ht
    exfalso
    obtain ⟨h₁, h₂, -⟩ := astar_found (edges_in hM) hsz.1 ht
    obtain ⟨j, hj, hbk⟩ := h₁.toInv.depth h₂
    have hid : ∀ v, t.d v < inf → (M.pts.ids v).isSome := by
      intro v hv
      by_cases e : v = s
      · rw [e, ids_of_ix hM hs]; rfl
      · obtain ⟨-, k', hl, -⟩ := h₁.tree v hv e
        obtain ⟨-, b', -, -, hb', -⟩ := link_piece h hM hl
        rw [hb']; rfl
    obtain ⟨l', w, m, hw, hle, hm, htr⟩ := trace_walk h₁.toInv hid j g M.size [] h₂ hbk hj
    rw [htr] at hr
    cases hr
  · rename_i t ht
    exact astar_empty (edges_in hM) hsz.1 ht
  · rename_i ht
    exact absurd ht (astar_not_spent (edges_in hM))

/-- Every drive is a way through the graph. -/
theorem drive_walk (h : Whole ways els) (hM : build o ways els = .ok M) {a b : Id} {l : List Id}
    {m : Nat} (hd : Drive ways (posOf M.pts.pos) a b l m) {s : Nat} (hs : M.pts.ix a = some s) :
    ∃ g l' w, M.pts.ix b = some g ∧ Walk M.edges s g l' w ∧ l'.length = l.length ∧ m ≤ w := by
  induction hd with
  | here => exact ⟨s, [s], 0, hs, .here, rfl, Nat.le_refl _⟩
  | @step b c l p m _ hp ih =>
    obtain ⟨g, l', w, hg, hw, hl, hmw⟩ := ih
    obtain ⟨⟨v, hv, hh, hin⟩, hb, hc, mid, rfl, hmid⟩ := hp
    have key : ∃ i j k, M.pts.ix b = some i ∧ M.pts.ix c = some j ∧ Link M.edges i j k ∧
        ⌊roadLen (posOf M.pts.pos) (b :: (mid ++ [c]))⌋₊ ≤ k := by
      rcases hin with ⟨pre, post, e⟩ | ⟨pre, post, e⟩
      · exact (C155_length_partial h hM).1 v hv hh pre b mid c post (by rw [← e]; simp) hb hc hmid
      · obtain ⟨i, j, k, hi, hj, ⟨g', hg', hlen, hor⟩, hle⟩ := (C155_length_partial h hM).1 v hv hh
          post.reverse c mid.reverse b pre.reverse (by
            rw [← List.reverse_reverse v.nodes, ← e]; simp) hc hb
          (fun x hx => hmid x (List.mem_reverse.mp hx))
        refine ⟨j, i, k, hj, hi, ⟨g', hg', hlen, hor.symm⟩, ?_⟩
        have : c :: (mid.reverse ++ [b]) = (b :: (mid ++ [c])).reverse := by simp
        rw [this, roadLen_reverse] at hle
        exact hle
    obtain ⟨i, j, k, hi, hj, hlk, hle⟩ := key
    rw [hg] at hi
    cases hi
    exact ⟨j, l' ++ [j], w + k, hj, .step hw hlk, by simp [hl], Nat.add_le_add hmw hle⟩

/-- **C157.**  A route is looked for without harm between points of pieces of roads: the
search is defined. -/
theorem C157_defined {c : Chooser} (h : Whole ways els) (hM : build o ways els = .ok M) {a b : Id}
    (ha : ∃ x p, RoadPiece ways p a x) (hb : ∃ x p, RoadPiece ways p b x) :
    ∃ r, shortest M c a b = .ok r := by
  have ends : ∀ {a : Id}, (∃ x p, RoadPiece ways p a x) → ∃ s, M.pts.ix a = some s ∧ s < M.size := by
    rintro a ⟨x, p, hp⟩
    obtain ⟨e, -⟩ := build_parts hM
    have : M.pts.ix a ≠ none := by
      rw [e]
      exact (loadInv _ els).has a (h.planning.mpr hp.2.1)
    obtain ⟨s, hs⟩ := Option.ne_none_iff_exists'.mp this
    refine ⟨s, hs, ?_⟩
    obtain ⟨g, l', w, hg, hw, hl, -⟩ := drive_walk h hM (.step .here hp) hs
    have : ∀ {v l w}, Walk M.edges s v l w → 2 ≤ l.length → s < M.size := by
      intro v l w hw
      induction hw with
      | here => intro h; simp at h
      | @step v y k l w hw hl ih =>
        intro _
        cases hw with
        | here =>
          obtain ⟨g, hg, -, ⟨rfl, -⟩ | ⟨-, rfl⟩⟩ := hl
          · exact (edges_in hM g hg).1
          · exact (edges_in hM g hg).2
        | step hw' hl' =>
          refine ih ?_
          rw [List.length_append, List.length_singleton]
          have : ∀ {v l w}, Walk M.edges s v l w → 1 ≤ l.length := by
            intro v l w h; cases h <;> simp
          have := this hw'
          omega
    exact this hw (by rw [hl]; simp)
  obtain ⟨s, hs, hs'⟩ := ends ha
  obtain ⟨g, hg, hg'⟩ := ends hb
  unfold shortest
  rw [hs, hg]
  cases hq : M.pts.pos b with
  | none => exact ⟨_, rfl⟩
  | some q =>
    dsimp only
    rw [if_pos ⟨hs', hg'⟩]
    split
    · split
      · exact ⟨_, rfl⟩
      · exact ⟨_, rfl⟩
    · exact ⟨_, rfl⟩
    · exact ⟨_, rfl⟩

/-- **C157.**  When all points of the roads are used for planning, the length given is at
most that of any drive, and one metre more for every piece of the drive but the first. -/
theorem C157_shortest {c : Chooser} (h : Whole ways els) (hM : build o ways els = .ok M)
    (hall : ∀ x ∈ onRoads ways, Planned ways x) {a b : Id} {k : Nat} {l : List Id}
    (hr : shortest M c a b = .ok (some (k, l))) {l' : List Id} {m : Nat}
    (hd : Drive ways (posOf M.pts.pos) a b l' m) : k ≤ m + (l'.length - 2) := by
  have hsg : ∃ s g, M.pts.ix a = some s ∧ M.pts.ix b = some g := by
    unfold shortest at hr
    split at hr
    · rename_i s g q hs hg hq; exact ⟨s, g, hs, hg⟩
    · cases hr
  obtain ⟨s, g, hs, hg⟩ := hsg
  have : ∀ {b l' m}, Drive ways (posOf M.pts.pos) a b l' m → ∃ g w, M.pts.ix b = some g ∧
      ∃ l'', Walk M.edges s g l'' w ∧ l''.length = l'.length ∧ w = m := by
    intro b l' m hd
    induction hd with
    | here => exact ⟨s, 0, hs, [s], .here, rfl, rfl⟩
    | @step b c l p m _ hp ih =>
      obtain ⟨g, w, hg, l'', hw, hl, rfl⟩ := ih
      obtain ⟨⟨v, hv, hh, hin⟩, hb, hc, mid, rfl, hmid⟩ := hp
      have hon : ∀ x ∈ v.nodes, Planned ways x := fun x hx => hall x (mem_onRoads.mpr ⟨v, hv, hh, hx⟩)
      have key : ∃ j, M.pts.ix c = some j ∧
          Link M.edges g j ⌊roadLen (posOf M.pts.pos) (b :: (mid ++ [c]))⌋₊ := by
        have hin' : (b :: (mid ++ [c])) <:+: o.f v.id v.nodes ∨
            (c :: (mid.reverse ++ [b])) <:+: o.f v.id v.nodes := by
          have hrev : ∀ l : List Id, (b :: (mid ++ [c])) <:+: l.reverse →
              (c :: (mid.reverse ++ [b])) <:+: l := by
            rintro l ⟨pre, post, e⟩
            refine ⟨post.reverse, pre.reverse, ?_⟩
            rw [← List.reverse_reverse l, ← e]; simp
          rcases o.ok v.id v.nodes with e | e <;> rw [e] <;> rcases hin with k | k
          · exact .inl k
          · exact .inr (hrev _ k)
          · exact .inr (hrev _ (by rw [List.reverse_reverse]; exact k))
          · exact .inl k
        rcases hin' with ⟨pre, post, e⟩ | ⟨pre, post, e⟩
        · obtain ⟨f, hf, hfa, hfb, hfl⟩ := C155_exact_partial h hM hv hh (pre := pre) (a := b)
            (mid := mid) (b := c) (post := post) (by rw [← e]; simp)
            (fun x hx => hon x ((mem_order (o := o) (w := v.id)).mp (by rw [← e]; simp [hx]))) hb hc hmid
          rw [hg] at hfa
          cases hfa
          exact ⟨f.b, hfb, f, hf, hfl, .inl ⟨rfl, rfl⟩⟩
        · obtain ⟨f, hf, hfa, hfb, hfl⟩ := C155_exact_partial h hM hv hh (pre := pre) (a := c)
            (mid := mid.reverse) (b := b) (post := post) (by rw [← e]; simp)
            (fun x hx => hon x ((mem_order (o := o) (w := v.id)).mp (by rw [← e]; simp [hx]))) hc hb
            (fun x hx => hmid x (List.mem_reverse.mp hx))
          rw [hg] at hfb
          cases hfb
          refine ⟨f.a, hfa, f, hf, ?_, .inr ⟨rfl, rfl⟩⟩
          have : c :: (mid.reverse ++ [b]) = (b :: (mid ++ [c])).reverse := by simp
          rw [hfl, this, roadLen_reverse]
      obtain ⟨j, hj, hlk⟩ := key
      exact ⟨j, _, hj, _, .step hw hlk, by simp [hl], rfl⟩
  obtain ⟨g', w, hg', l'', hw, hl, rfl⟩ := this hd
  rw [hg] at hg'
  cases hg'
  rw [← hl]
  exact C157_short_partial h hM hr hs hg hw

end

end Verif.Roads
