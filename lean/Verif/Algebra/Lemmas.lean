import Verif.Algebra.Spec

/-! Helper lemmas for the language theorem of the process algebra. -/

namespace Verif.Algebra

/-- Prefix of a word of a tree. -/
def Pre (t : Tree) (u : List Int) : Prop := ∃ w, Word t w ∧ u <+: w
/-- Not in the code: `u` begins a word of the sequence. -/
def PreSeq (cs : List Tree) (u : List Int) : Prop := ∃ w, WordSeq cs w ∧ u <+: w
/-- Not in the code: `u` begins a word of the alternative. -/
def PreAlt (cs : List Tree) (u : List Int) : Prop := ∃ w, WordAlt cs w ∧ u <+: w
/-- Not in the code: `u` begins a word of the parallel composition. -/
def PrePar (cs : List Tree) (u : List Int) : Prop := ∃ w, WordPar cs w ∧ u <+: w

/-! ### nextActions only looks at membership -/

mutual
theorem next_congr {ex ex' : List Int} : ∀ (t : Tree),
    (∀ a ∈ actionsOf t, a ∈ ex ↔ a ∈ ex') → nextActions ex t = nextActions ex' t
  | .action a, h => by
    have := h a (by simp [actionsOf])
    simp [nextActions, this]
  | .op o cs, h => by
    simp only [nextActions]
    rw [nextList_congr cs (by simpa [actionsOf] using h)]
theorem nextList_congr {ex ex' : List Int} : ∀ (cs : List Tree),
    (∀ a ∈ actionsOfList cs, a ∈ ex ↔ a ∈ ex') → nextActionsList ex cs = nextActionsList ex' cs
  | [], _ => rfl
  | c :: cs, h => by
    simp only [nextActionsList]
    rw [next_congr c (fun a ha => h a (by simp [actionsOfList, ha])),
      nextList_congr cs (fun a ha => h a (by simp [actionsOfList, ha]))]
end

theorem seqNext_mem {b : Bool} {rs : List NextRes} {a : Int} (h : a ∈ (seqNext b rs).1) :
    ∃ r ∈ rs, a ∈ r.1 := by
  induction rs generalizing b with
  | nil => simp [seqNext] at h
  | cons r rs ih =>
    simp only [seqNext] at h
    split at h
    · exact ⟨r, by simp, h⟩
    · obtain ⟨r', hr', ha⟩ := ih h
      exact ⟨r', by simp [hr'], ha⟩

theorem altNext_mem {rs : List NextRes} {a : Int} (h : a ∈ (altNext rs).1) :
    ∃ r ∈ rs, a ∈ r.1 := by
  simp only [altNext] at h
  split at h
  · next r hr => exact ⟨r, List.mem_of_find?_eq_some hr, h⟩
  · simpa using h

theorem combine_mem {o : OpType} {rs : List NextRes} {a : Int} (h : a ∈ (combine o rs).1) :
    ∃ r ∈ rs, a ∈ r.1 := by
  cases o with
  | seq => exact seqNext_mem h
  | alt => exact altNext_mem h
  | par => simpa [combine, parNext] using h

mutual
theorem next_sub {ex : List Int} {a : Int} : ∀ (t : Tree),
    a ∈ (nextActions ex t).1 → a ∈ actionsOf t ∧ a ∉ ex
  | .action b, h => by
    simp only [nextActions] at h
    split at h
    · simp at h
    · simp only [List.mem_singleton] at h; subst h; simp_all [actionsOf]
  | .op o cs, h => by
    obtain ⟨r, hr, ha⟩ := combine_mem h
    simpa [actionsOf] using nextList_sub cs r hr ha
theorem nextList_sub {ex : List Int} {a : Int} : ∀ (cs : List Tree) (r : NextRes),
    r ∈ nextActionsList ex cs → a ∈ r.1 → a ∈ actionsOfList cs ∧ a ∉ ex
  | [], r, hr, _ => by simp [nextActionsList] at hr
  | c :: cs, r, hr, ha => by
    simp only [nextActionsList, List.mem_cons] at hr
    rcases hr with rfl | hr
    · have := next_sub c ha
      exact ⟨by simp [actionsOfList, this.1], this.2⟩
    · have := nextList_sub cs r hr ha
      exact ⟨by simp [actionsOfList, this.1], this.2⟩
end

/-! ### Occurrence -/

theorem mem_actionsOfList {a : Int} : ∀ {cs : List Tree},
    a ∈ actionsOfList cs ↔ ∃ c ∈ cs, a ∈ actionsOf c
  | [] => by simp [actionsOfList]
  | c :: cs => by simp [actionsOfList, mem_actionsOfList (cs := cs)]

mutual
theorem occurs_of_mem {a : Int} : ∀ (t : Tree), a ∈ actionsOf t → Occurs a t
  | .action b, h => by
    simp only [actionsOf, List.mem_singleton] at h; subst h; exact .action
  | .op o cs, h => by
    obtain ⟨c, hc, ho⟩ := occursList_of_mem cs (by simpa [actionsOf] using h)
    exact .op hc ho
theorem occursList_of_mem {a : Int} : ∀ (cs : List Tree), a ∈ actionsOfList cs →
    ∃ c ∈ cs, Occurs a c
  | [], h => by simp [actionsOfList] at h
  | c :: cs, h => by
    simp only [actionsOfList, List.mem_append] at h
    rcases h with h | h
    · exact ⟨c, by simp, occurs_of_mem c h⟩
    · obtain ⟨d, hd, ho⟩ := occursList_of_mem cs h
      exact ⟨d, by simp [hd], ho⟩
end

theorem mem_of_occurs {a : Int} {t : Tree} (h : Occurs a t) : a ∈ actionsOf t := by
  induction h with
  | action => simp [actionsOf]
  | op hc _ ih => simpa [actionsOf] using mem_actionsOfList.2 ⟨_, hc, ih⟩

theorem occurs_iff {a : Int} {t : Tree} : Occurs a t ↔ a ∈ actionsOf t :=
  ⟨mem_of_occurs, occurs_of_mem t⟩

mutual
theorem objectives_eq : ∀ t : Tree, objectives t = actionsOf t
  | .action a => by simp [objectives, actionsOf]
  | .op o cs => by simp [objectives, actionsOf, objectivesL_eq cs]
theorem objectivesL_eq : ∀ cs : List Tree, objectivesL cs = actionsOfList cs
  | [] => by simp [objectivesL, actionsOfList]
  | c :: cs => by simp [objectivesL, actionsOfList, objectives_eq c, objectivesL_eq cs]
end

/-! ### Shuffles -/

theorem Shuffle.filter {p : Int → Bool} {u v w : List Int} (h : Shuffle u v w)
    (hu : ∀ x ∈ u, p x = true) (hv : ∀ x ∈ v, p x = false) :
    w.filter p = u ∧ w.filter (fun x => !p x) = v := by
  induction h with
  | nil => simp
  | left _ ih =>
    have := ih (fun x hx => hu x (by simp [hx])) hv
    simp [this.1, this.2, hu]
  | right _ ih =>
    have := ih hu (fun x hx => hv x (by simp [hx]))
    simp [this.1, this.2, hv]

theorem Shuffle.of_filter (p : Int → Bool) : ∀ (w : List Int),
    Shuffle (w.filter p) (w.filter (fun x => !p x)) w
  | [] => .nil
  | x :: w => by
    cases hx : p x
    · simpa [hx] using Shuffle.right (Shuffle.of_filter p w)
    · simpa [hx] using Shuffle.left (Shuffle.of_filter p w)

theorem Shuffle.mem {u v w : List Int} (h : Shuffle u v w) (x : Int) :
    x ∈ w ↔ x ∈ u ∨ x ∈ v := by
  induction h with
  | nil => simp
  | left _ ih => simp only [List.mem_cons, ih]; grind
  | right _ ih => simp only [List.mem_cons, ih]; grind

/-! ### Words -/

theorem wordAlt_iff {w : List Int} : ∀ {cs : List Tree}, WordAlt cs w ↔ ∃ c ∈ cs, Word c w
  | [] => by simp [WordAlt]
  | c :: cs => by simp [WordAlt, wordAlt_iff (cs := cs)]

mutual
theorem word_sub : ∀ (t : Tree) {w : List Int}, Word t w → ∀ a ∈ w, a ∈ actionsOf t
  | .action b, w, h, a, ha => by
    simp only [Word] at h; subst h; simpa [actionsOf] using ha
  | .op .seq cs, w, h, a, ha => by
    simpa [actionsOf] using wordSeq_sub cs (by simpa [Word] using h) a ha
  | .op .alt cs, w, h, a, ha => by
    simpa [actionsOf] using wordAlt_sub cs (by simpa [Word] using h) a ha
  | .op .par cs, w, h, a, ha => by
    simpa [actionsOf] using wordPar_sub cs (by simpa [Word] using h) a ha
theorem wordSeq_sub : ∀ (cs : List Tree) {w : List Int}, WordSeq cs w →
    ∀ a ∈ w, a ∈ actionsOfList cs
  | [], w, h, a, ha => by simp only [WordSeq] at h; subst h; simp at ha
  | c :: cs, w, h, a, ha => by
    obtain ⟨u, v, rfl, hu, hv⟩ := h
    rcases List.mem_append.1 ha with h | h
    · simp [actionsOfList, word_sub c hu a h]
    · simp [actionsOfList, wordSeq_sub cs hv a h]
theorem wordAlt_sub : ∀ (cs : List Tree) {w : List Int}, WordAlt cs w →
    ∀ a ∈ w, a ∈ actionsOfList cs
  | [], w, h, a, ha => by simp [WordAlt] at h
  | c :: cs, w, h, a, ha => by
    rcases h with h | h
    · simp [actionsOfList, word_sub c h a ha]
    · simp [actionsOfList, wordAlt_sub cs h a ha]
theorem wordPar_sub : ∀ (cs : List Tree) {w : List Int}, WordPar cs w →
    ∀ a ∈ w, a ∈ actionsOfList cs
  | [], w, h, a, ha => by simp only [WordPar] at h; subst h; simp at ha
  | c :: cs, w, h, a, ha => by
    obtain ⟨u, v, hs, hu, hv⟩ := h
    rcases (hs.mem a).1 ha with h | h
    · simp [actionsOfList, word_sub c hu a h]
    · simp [actionsOfList, wordPar_sub cs hv a h]
end

mutual
theorem exists_word : ∀ (t : Tree), NonEmptyOps t → ∃ w, Word t w
  | .action a, _ => ⟨[a], by simp [Word]⟩
  | .op .seq cs, h => by simpa [Word] using exists_wordSeq cs h.2
  | .op .alt (c :: cs), h => by
    obtain ⟨w, hw⟩ := exists_word c h.2.1
    exact ⟨w, Or.inl hw⟩
  | .op .alt [], h => by simp [NonEmptyOps] at h
  | .op .par cs, h => by simpa [Word] using exists_wordPar cs h.2
theorem exists_wordSeq : ∀ (cs : List Tree), NonEmptyOpsList cs → ∃ w, WordSeq cs w
  | [], _ => ⟨[], by simp [WordSeq]⟩
  | c :: cs, h => by
    obtain ⟨u, hu⟩ := exists_word c h.1
    obtain ⟨v, hv⟩ := exists_wordSeq cs h.2
    exact ⟨u ++ v, u, v, rfl, hu, hv⟩
theorem exists_wordPar : ∀ (cs : List Tree), NonEmptyOpsList cs → ∃ w, WordPar cs w
  | [], _ => ⟨[], by simp [WordPar]⟩
  | c :: cs, h => by
    obtain ⟨u, hu⟩ := exists_word c h.1
    obtain ⟨v, hv⟩ := exists_wordPar cs h.2
    refine ⟨u ++ v, u, v, ?_, hu, hv⟩
    clear hu hv
    induction u with
    | nil => induction v with
      | nil => exact .nil
      | cons a v ih => exact .right ih
    | cons a u ih => exact .left ih
end

theorem shuffle_nil {u v : List Int} (h : Shuffle u v []) : u = [] ∧ v = [] := by
  cases h; simp

mutual
theorem word_ne_nil : ∀ (t : Tree), NonEmptyOps t → ¬ Word t []
  | .action a, _, h => by simp [Word] at h
  | .op .seq cs, hn, h => wordSeq_ne_nil cs hn.1 hn.2 (by simpa [Word] using h)
  | .op .alt cs, hn, h => wordAlt_ne_nil cs hn.2 (by simpa [Word] using h)
  | .op .par cs, hn, h => wordPar_ne_nil cs hn.1 hn.2 (by simpa [Word] using h)
theorem wordSeq_ne_nil : ∀ (cs : List Tree), cs ≠ [] → NonEmptyOpsList cs → ¬ WordSeq cs []
  | [], h, _, _ => h rfl
  | c :: cs, _, hn, h => by
    obtain ⟨u, v, he, hu, hv⟩ := h
    have : u = [] := by simp at he; exact he.1
    subst this
    exact word_ne_nil c hn.1 hu
theorem wordAlt_ne_nil : ∀ (cs : List Tree), NonEmptyOpsList cs → ¬ WordAlt cs []
  | [], _, h => by simp [WordAlt] at h
  | c :: cs, hn, h => by
    rcases h with h | h
    · exact word_ne_nil c hn.1 h
    · exact wordAlt_ne_nil cs hn.2 h
theorem wordPar_ne_nil : ∀ (cs : List Tree), cs ≠ [] → NonEmptyOpsList cs → ¬ WordPar cs []
  | [], h, _, _ => h rfl
  | c :: cs, _, hn, h => by
    obtain ⟨u, v, hs, hu, hv⟩ := h
    obtain ⟨rfl, rfl⟩ := shuffle_nil hs
    exact word_ne_nil c hn.1 hu
end

theorem Pre.sub {t : Tree} {u : List Int} (h : Pre t u) : ∀ a ∈ u, a ∈ actionsOf t := by
  obtain ⟨w, hw, hp⟩ := h
  intro a ha
  exact word_sub t hw a (hp.subset ha)

theorem PreSeq.sub {cs : List Tree} {u : List Int} (h : PreSeq cs u) :
    ∀ a ∈ u, a ∈ actionsOfList cs := by
  obtain ⟨w, hw, hp⟩ := h
  intro a ha
  exact wordSeq_sub cs hw a (hp.subset ha)

theorem PreAlt.sub {cs : List Tree} {u : List Int} (h : PreAlt cs u) :
    ∀ a ∈ u, a ∈ actionsOfList cs := by
  obtain ⟨w, hw, hp⟩ := h
  intro a ha
  exact wordAlt_sub cs hw a (hp.subset ha)

theorem PrePar.sub {cs : List Tree} {u : List Int} (h : PrePar cs u) :
    ∀ a ∈ u, a ∈ actionsOfList cs := by
  obtain ⟨w, hw, hp⟩ := h
  intro a ha
  exact wordPar_sub cs hw a (hp.subset ha)

theorem Pre.of_prefix {t : Tree} {u v : List Int} (h : Pre t v) (hp : u <+: v) : Pre t u := by
  obtain ⟨w, hw, h'⟩ := h
  exact ⟨w, hw, hp.trans h'⟩

/-! ### The main induction -/

/-- What `nextActions` means after executing a prefix `u` of a word of `t`. -/
structure Spec (pre word : List Int → Prop) (r : NextRes) (u : List Int) : Prop where
  enc : r.2 = true ↔ u ≠ []
  fin : r.1 = [] ↔ word u
  nxt : ∀ a, a ∈ r.1 ↔ pre (u ++ [a])

/-- Not in the code: what is proved of a tree by induction. -/
def Main (t : Tree) : Prop :=
  ∀ u, Pre t u → Spec (Pre t) (Word t) (nextActions u t) u

theorem Main.prefixFree {t : Tree} (h : Main t) {w u : List Int} (hw : Word t w) (hu : Pre t u)
    (hp : w <+: u) : w = u := by
  obtain ⟨r, rfl⟩ := hp
  cases r with
  | nil => simp
  | cons a r =>
    exfalso
    have hs := h w ⟨w, hw, List.prefix_refl w⟩
    have h1 : Pre t (w ++ [a]) := hu.of_prefix ⟨r, by simp⟩
    have h2 := (hs.nxt a).2 h1
    rw [hs.fin.2 hw] at h2
    simp at h2

theorem seqNext_false_snd : ∀ rs : List NextRes, (seqNext false rs).2 = true
  | [] => rfl
  | r :: rs => by
    simp only [seqNext]
    split
    · simp
    · exact seqNext_false_snd rs

theorem seqNext_fst (b : Bool) : ∀ rs : List NextRes, (seqNext b rs).1 = (seqNext true rs).1
  | [] => rfl
  | r :: rs => by simp only [seqNext]; split <;> rfl

theorem seq_main : ∀ (cs : List Tree), (∀ c ∈ cs, Main c) → (actionsOfList cs).Nodup →
    NonEmptyOpsList cs → ∀ u, PreSeq cs u →
    ((seqNext true (nextActionsList u cs)).1 = [] ↔ WordSeq cs u) ∧
    (∀ a, a ∈ (seqNext true (nextActionsList u cs)).1 ↔ PreSeq cs (u ++ [a])) ∧
    (cs ≠ [] → ((seqNext true (nextActionsList u cs)).2 = true ↔ u ≠ []))
  | [], _, _, _, u, hu => by
    obtain ⟨w, hw, hp⟩ := hu
    simp only [WordSeq] at hw
    subst hw
    have : u = [] := by simpa using hp
    subst this
    refine ⟨by simp [nextActionsList, seqNext, WordSeq], ?_, by simp⟩
    intro a
    simp only [nextActionsList, seqNext, List.not_mem_nil, false_iff]
    rintro ⟨w, hw, hp⟩
    simp only [WordSeq] at hw
    subst hw
    simp at hp
  | c :: cs, hm, hnd, hne, u, hu => by
    have hmc := hm c (by simp)
    have ih := seq_main cs (fun d hd => hm d (by simp [hd]))
      (by simp only [actionsOfList] at hnd; exact (List.nodup_append.1 hnd).2.1) hne.2
    have hdis : ∀ a, a ∈ actionsOf c → a ∉ actionsOfList cs := by
      simp only [actionsOfList] at hnd
      intro a h1 h2
      exact (List.nodup_append.1 hnd).2.2 a h1 a h2 rfl
    by_cases hc : Pre c u ∧ ¬ Word c u
    · -- still inside the first child
      obtain ⟨hpu, hnw⟩ := hc
      have hs := hmc u hpu
      have hne' : (nextActions u c).1 ≠ [] := fun h => hnw (hs.fin.1 h)
      have hlen : (nextActions u c).1.length > 0 := by
        cases h : (nextActions u c).1 with
        | nil => exact absurd h hne'
        | cons => simp
      simp only [nextActionsList, seqNext, hlen, if_true]
      refine ⟨?_, ?_, ?_⟩
      · constructor
        · intro h; exact absurd h hne'
        · rintro ⟨u1, v, rfl, h1, h2⟩
          have hv : v = [] := by
            cases v with
            | nil => rfl
            | cons x v =>
              exact absurd (wordSeq_sub cs h2 x (by simp)) (hdis x (hpu.sub x (by simp)))
          subst hv
          simp only [List.append_nil] at hnw
          exact absurd h1 hnw
      · intro a
        rw [hs.nxt a]
        constructor
        · rintro ⟨w, hw, hp⟩
          obtain ⟨v, hv⟩ := exists_wordSeq cs hne.2
          exact ⟨w ++ v, ⟨w, v, rfl, hw, hv⟩, hp.trans (List.prefix_append _ _)⟩
        · rintro ⟨w, ⟨w1, w2, rfl, h1, h2⟩, hp⟩
          rcases List.prefix_or_prefix_of_prefix hp (List.prefix_append w1 w2) with h | h
          · exact ⟨w1, h1, h⟩
          · rcases List.prefix_concat_iff.1 h with h | h
            · subst h
              exact ⟨_, h1, List.prefix_refl _⟩
            · have := hmc.prefixFree h1 hpu h
              subst this
              exact absurd h1 hnw
      · intro _
        exact hs.enc
    · -- the first child is complete
      have : ∃ w1 u2, u = w1 ++ u2 ∧ Word c w1 ∧ PreSeq cs u2 := by
        obtain ⟨w, ⟨w1, w2, rfl, h1, h2⟩, hp⟩ := hu
        rcases List.prefix_or_prefix_of_prefix hp (List.prefix_append w1 w2) with h | h
        · have hw : Word c u := by
            by_cases hw : Word c u
            · exact hw
            · exact absurd ⟨⟨w1, h1, h⟩, hw⟩ hc
          exact ⟨u, [], by simp, hw, w2, h2, by simp⟩
        · obtain ⟨u2, rfl⟩ := h
          exact ⟨w1, u2, rfl, h1, w2, h2, (List.prefix_append_right_inj w1).1 hp⟩
      obtain ⟨w1, u2, rfl, h1, hu2⟩ := this
      have hu2s := hu2.sub
      have hw1s := word_sub c h1
      have e1 : nextActions (w1 ++ u2) c = nextActions w1 c := by
        apply next_congr
        intro a ha
        simp only [List.mem_append, or_iff_left_iff_imp]
        intro h
        exact absurd (hu2s a h) (hdis a ha)
      have e2 : nextActionsList (w1 ++ u2) cs = nextActionsList u2 cs := by
        apply nextList_congr
        intro a ha
        simp only [List.mem_append, or_iff_right_iff_imp]
        intro h
        exact absurd ha (hdis a (hw1s a h))
      have e3 : (nextActions w1 c).1 = [] :=
        (hmc w1 ⟨w1, h1, List.prefix_refl _⟩).fin.2 h1
      have hw1ne : w1 ≠ [] := by
        rintro rfl
        exact word_ne_nil c hne.1 h1
      simp only [nextActionsList, e1, e2, seqNext, e3, List.length_nil, gt_iff_lt, Nat.lt_irrefl,
        if_false]
      obtain ⟨i1, i2, -⟩ := ih u2 hu2
      rw [seqNext_fst false]
      refine ⟨?_, ?_, ?_⟩
      · rw [i1]
        constructor
        · intro h; exact ⟨w1, u2, rfl, h1, h⟩
        · rintro ⟨u1, v, he, h1', h2'⟩
          have hpre : w1 <+: u1 ++ v := he ▸ List.prefix_append w1 u2
          have : w1 = u1 := by
            rcases List.prefix_or_prefix_of_prefix hpre (List.prefix_append u1 v) with h | h
            · exact hmc.prefixFree h1 ⟨u1, h1', List.prefix_refl _⟩ h
            · exact (hmc.prefixFree h1' ⟨w1, h1, List.prefix_refl _⟩ h).symm
          subst this
          rw [List.append_cancel_left he]
          exact h2'
      · intro a
        rw [i2 a]
        constructor
        · rintro ⟨w, hw, hp⟩
          exact ⟨w1 ++ w, ⟨w1, w, rfl, h1, hw⟩, by
            rw [List.append_assoc]; exact (List.prefix_append_right_inj w1).2 hp⟩
        · rintro ⟨w, ⟨u1, v, rfl, h1', h2'⟩, hp⟩
          rw [List.append_assoc] at hp
          have hpre : w1 <+: u1 ++ v := (List.prefix_append w1 _).trans hp
          have : w1 = u1 := by
            rcases List.prefix_or_prefix_of_prefix hpre (List.prefix_append u1 v) with h | h
            · exact hmc.prefixFree h1 ⟨u1, h1', List.prefix_refl _⟩ h
            · exact (hmc.prefixFree h1' ⟨w1, h1, List.prefix_refl _⟩ h).symm
          subst this
          exact ⟨v, h2', (List.prefix_append_right_inj w1).1 hp⟩
      · intro _
        simp [seqNext_false_snd, hw1ne]

theorem altNext_cons (r : NextRes) (rs : List NextRes) :
    altNext (r :: rs) =
      if r.2 then (r.1, true)
      else if (altNext rs).2 then altNext rs
      else (r.1 ++ (altNext rs).1, false) := by
  rcases h2 : rs.find? (fun r => r.2) with _ | x <;> cases h : r.2 <;>
    simp [altNext, h, h2]

theorem preAlt_cons {c : Tree} {cs : List Tree} {u : List Int} :
    PreAlt (c :: cs) u ↔ Pre c u ∨ PreAlt cs u := by
  constructor
  · rintro ⟨w, hw | hw, hp⟩
    · exact .inl ⟨w, hw, hp⟩
    · exact .inr ⟨w, hw, hp⟩
  · rintro (⟨w, hw, hp⟩ | ⟨w, hw, hp⟩)
    · exact ⟨w, .inl hw, hp⟩
    · exact ⟨w, .inr hw, hp⟩

theorem alt_main : ∀ (cs : List Tree), (∀ c ∈ cs, Main c) → (actionsOfList cs).Nodup →
    NonEmptyOpsList cs → ∀ u, (PreAlt cs u ∨ u = []) →
    ((altNext (nextActionsList u cs)).2 = true ↔ u ≠ []) ∧
    (∀ a, a ∈ (altNext (nextActionsList u cs)).1 ↔ PreAlt cs (u ++ [a])) ∧
    (u ≠ [] → ((altNext (nextActionsList u cs)).1 = [] ↔ WordAlt cs u))
  | [], _, _, _, u, hu => by
    have : u = [] := by
      rcases hu with ⟨w, hw, _⟩ | h
      · simp [WordAlt] at hw
      · exact h
    subst this
    refine ⟨by simp [nextActionsList, altNext], ?_, by simp⟩
    intro a
    simp only [nextActionsList, altNext, List.find?_nil, List.flatMap_nil, List.not_mem_nil,
      false_iff]
    rintro ⟨w, hw, _⟩
    simp [WordAlt] at hw
  | c :: cs, hm, hnd, hne, u, hu => by
    have hmc := hm c (by simp)
    have ih := alt_main cs (fun d hd => hm d (by simp [hd]))
      (by simp only [actionsOfList] at hnd; exact (List.nodup_append.1 hnd).2.1) hne.2
    have hdis : ∀ a, a ∈ actionsOf c → a ∉ actionsOfList cs := by
      simp only [actionsOfList] at hnd
      intro a h1 h2
      exact (List.nodup_append.1 hnd).2.2 a h1 a h2 rfl
    have hpre0 : Pre c [] := by
      obtain ⟨w, hw⟩ := exists_word c hne.1
      exact ⟨w, hw, by simp⟩
    have hs0 := hmc [] hpre0
    have hc0 : (nextActions [] c).2 = false := by
      have := hs0.enc
      cases h : (nextActions [] c).2 with
      | false => rfl
      | true => simp [h] at this
    simp only [nextActionsList, altNext_cons]
    by_cases hnil : u = []
    · subst hnil
      obtain ⟨i1, i2, -⟩ := ih [] (.inr rfl)
      have hr0 : (altNext (nextActionsList [] cs)).2 = false := by
        cases h : (altNext (nextActionsList [] cs)).2 with
        | false => rfl
        | true => simp [h] at i1
      simp only [hc0, hr0, Bool.false_eq_true, if_false]
      refine ⟨by simp, ?_, by simp⟩
      intro a
      rw [List.mem_append, hs0.nxt a, i2 a, preAlt_cons]
    · have hu' : PreAlt (c :: cs) u := by
        rcases hu with h | h
        · exact h
        · exact absurd h hnil
      obtain ⟨x, xs, rfl⟩ : ∃ x xs, u = x :: xs := by
        cases u with
        | nil => exact absurd rfl hnil
        | cons x xs => exact ⟨x, xs, rfl⟩
      rcases preAlt_cons.1 hu' with h | h
      · have hs := hmc _ h
        have : (nextActions (x :: xs) c).2 = true := hs.enc.2 (by simp)
        simp only [this, if_true]
        have hx : x ∉ actionsOfList cs := hdis x (h.sub x (by simp))
        refine ⟨by simp, ?_, ?_⟩
        · intro a
          rw [hs.nxt a, preAlt_cons]
          constructor
          · exact .inl
          · rintro (h' | h')
            · exact h'
            · exact absurd (h'.sub x (by simp)) hx
        · intro _
          rw [hs.fin]
          constructor
          · exact .inl
          · rintro (h' | h')
            · exact h'
            · exact absurd (wordAlt_sub cs h' x (by simp)) hx
      · have hsub := h.sub
        have e1 : nextActions (x :: xs) c = nextActions [] c := by
          apply next_congr
          intro a ha
          simp only [List.not_mem_nil, iff_false]
          intro h'
          exact hdis a ha (hsub a h')
        obtain ⟨i1, i2, i3⟩ := ih (x :: xs) (.inl h)
        have i1' := i1.2 (by simp)
        have hx : x ∉ actionsOf c := fun h' => hdis x h' (hsub x (by simp))
        simp only [e1, hc0, Bool.false_eq_true, if_false, i1', if_true]
        refine ⟨by simp, ?_, ?_⟩
        · intro a
          rw [i2 a, preAlt_cons]
          constructor
          · exact .inr
          · rintro (h' | h')
            · exact absurd (h'.sub x (by simp)) hx
            · exact h'
        · intro hn
          rw [i3 hn]
          constructor
          · exact .inr
          · rintro (h' | h')
            · exact absurd (word_sub c h' x (by simp)) hx
            · exact h'

theorem wordPar_cons_iff {c : Tree} {cs : List Tree} {w : List Int}
    (hdis : ∀ a, a ∈ actionsOf c → a ∉ actionsOfList cs) :
    WordPar (c :: cs) w ↔ Word c (w.filter (fun x => decide (x ∈ actionsOf c))) ∧
      WordPar cs (w.filter (fun x => !decide (x ∈ actionsOf c))) := by
  constructor
  · rintro ⟨u, v, hs, hu, hv⟩
    have := hs.filter (p := fun x => decide (x ∈ actionsOf c))
      (fun x hx => by simpa using word_sub c hu x hx)
      (fun x hx => by
        have := wordPar_sub cs hv x hx
        simp only [decide_eq_false_iff_not]
        exact fun h => hdis x h this)
    rw [this.1, this.2]
    exact ⟨hu, hv⟩
  · rintro ⟨h1, h2⟩
    exact ⟨_, _, Shuffle.of_filter _ w, h1, h2⟩

theorem prePar_cons_iff {c : Tree} {cs : List Tree} {u : List Int}
    (hdis : ∀ a, a ∈ actionsOf c → a ∉ actionsOfList cs) :
    PrePar (c :: cs) u ↔ Pre c (u.filter (fun x => decide (x ∈ actionsOf c))) ∧
      PrePar cs (u.filter (fun x => !decide (x ∈ actionsOf c))) := by
  constructor
  · rintro ⟨w, hw, hp⟩
    obtain ⟨h1, h2⟩ := (wordPar_cons_iff hdis).1 hw
    exact ⟨⟨_, h1, hp.filter _⟩, ⟨_, h2, hp.filter _⟩⟩
  · rintro ⟨⟨w1, h1, r1, e1⟩, ⟨w2, h2, r2, e2⟩⟩
    have s1 : ∀ x ∈ r1, x ∈ actionsOf c := fun x hx => word_sub c h1 x (by simp [← e1, hx])
    have s2 : ∀ x ∈ r2, x ∉ actionsOf c := fun x hx h =>
      hdis x h (wordPar_sub cs h2 x (by simp [← e2, hx]))
    have f1 : r1.filter (fun x => decide (x ∈ actionsOf c)) = r1 :=
      List.filter_eq_self.2 (fun x hx => by simpa using s1 x hx)
    have f2 : r2.filter (fun x => decide (x ∈ actionsOf c)) = [] :=
      List.filter_eq_nil_iff.2 (fun x hx => by simpa using s2 x hx)
    have f3 : r1.filter (fun x => !decide (x ∈ actionsOf c)) = [] :=
      List.filter_eq_nil_iff.2 (fun x hx => by simpa using s1 x hx)
    have f4 : r2.filter (fun x => !decide (x ∈ actionsOf c)) = r2 :=
      List.filter_eq_self.2 (fun x hx => by simpa using s2 x hx)
    refine ⟨u ++ (r1 ++ r2), (wordPar_cons_iff hdis).2 ?_, List.prefix_append _ _⟩
    simp only [List.filter_append, f1, f2, f3, f4, List.append_nil, List.nil_append, e1, e2]
    exact ⟨h1, h2⟩

theorem par_main : ∀ (cs : List Tree), (∀ c ∈ cs, Main c) → (actionsOfList cs).Nodup →
    ∀ u, PrePar cs u → Spec (PrePar cs) (WordPar cs) (parNext (nextActionsList u cs)) u
  | [], _, _, u, hu => by
    obtain ⟨w, hw, hp⟩ := hu
    simp only [WordPar] at hw
    subst hw
    have : u = [] := by simpa using hp
    subst this
    refine ⟨by simp [nextActionsList, parNext], by simp [nextActionsList, parNext, WordPar], ?_⟩
    intro a
    simp only [nextActionsList, parNext, List.flatMap_nil, List.not_mem_nil, false_iff]
    rintro ⟨w, hw, hp⟩
    simp only [WordPar] at hw
    subst hw
    simp at hp
  | c :: cs, hm, hnd, u, hu => by
    have hmc := hm c (by simp)
    have ih := par_main cs (fun d hd => hm d (by simp [hd]))
      (by simp only [actionsOfList] at hnd; exact (List.nodup_append.1 hnd).2.1)
    have hdis : ∀ a, a ∈ actionsOf c → a ∉ actionsOfList cs := by
      simp only [actionsOfList] at hnd
      intro a h1 h2
      exact (List.nodup_append.1 hnd).2.2 a h1 a h2 rfl
    obtain ⟨hp1, hp2⟩ := (prePar_cons_iff hdis).1 hu
    have s1 := hmc _ hp1
    have s2 := ih _ hp2
    have e1 : nextActions u c =
        nextActions (u.filter (fun x => decide (x ∈ actionsOf c))) c := by
      apply next_congr
      intro a ha
      simp [ha]
    have e2 : nextActionsList u cs =
        nextActionsList (u.filter (fun x => !decide (x ∈ actionsOf c))) cs := by
      apply nextList_congr
      intro a ha
      have : a ∉ actionsOf c := fun h => hdis a h ha
      simp [this]
    have key : parNext (nextActionsList u (c :: cs)) =
        ((nextActions (u.filter (fun x => decide (x ∈ actionsOf c))) c).1 ++
          (parNext (nextActionsList (u.filter (fun x => !decide (x ∈ actionsOf c))) cs)).1,
         (nextActions (u.filter (fun x => decide (x ∈ actionsOf c))) c).2 ||
          (parNext (nextActionsList (u.filter (fun x => !decide (x ∈ actionsOf c))) cs)).2) := by
      simp only [nextActionsList, parNext, List.flatMap_cons, List.any_cons, ← e1, ← e2]
    rw [key]
    refine ⟨?_, ?_, ?_⟩
    · rw [Bool.or_eq_true, s1.enc, s2.enc]
      constructor
      · rintro h rfl
        simp at h
      · intro h
        obtain ⟨x, xs, rfl⟩ : ∃ x xs, u = x :: xs := by
          cases u with
          | nil => exact absurd rfl h
          | cons x xs => exact ⟨x, xs, rfl⟩
        by_cases hx : x ∈ actionsOf c
        · left; simp [hx]
        · right; simp [hx]
    · rw [List.append_eq_nil_iff, s1.fin, s2.fin, wordPar_cons_iff hdis]
    · intro a
      rw [List.mem_append, s1.nxt a, s2.nxt a, prePar_cons_iff hdis]
      simp only [List.filter_append]
      by_cases ha : a ∈ actionsOf c
      · simp only [List.filter_cons, ha, decide_true, if_true, List.filter_nil, Bool.not_true,
          Bool.false_eq_true, if_false, List.append_nil]
        constructor
        · rintro (h | h)
          · exact ⟨h, hp2⟩
          · exact absurd (h.sub a (by simp)) (hdis a ha)
        · exact fun h => .inl h.1
      · simp only [List.filter_cons, ha, decide_false, Bool.false_eq_true, if_false,
          List.filter_nil, Bool.not_false, if_true, List.append_nil]
        constructor
        · rintro (h | h)
          · exact absurd (h.sub a (by simp)) ha
          · exact ⟨hp1, h⟩
        · exact fun h => .inr h.2

mutual
theorem main : ∀ (t : Tree), (actionsOf t).Nodup → NonEmptyOps t → Main t
  | .action a, _, _ => by
    rintro u ⟨w, hw, hp⟩
    simp only [Word] at hw
    subst hw
    have : u = [] ∨ u = [a] := by
      cases u with
      | nil => simp
      | cons x xs => simp at hp ⊢; exact hp
    rcases this with rfl | rfl
    · refine ⟨by simp [nextActions], by simp [nextActions, Word], ?_⟩
      intro b
      simp only [nextActions, List.not_mem_nil, if_false, List.mem_singleton, List.nil_append]
      constructor
      · rintro rfl; exact ⟨[b], rfl, List.prefix_refl _⟩
      · rintro ⟨w, hw, hp⟩
        simp only [Word] at hw
        subst hw
        simpa using hp
    · refine ⟨by simp [nextActions], by simp [nextActions, Word], ?_⟩
      intro b
      simp only [nextActions, List.mem_singleton, if_true, List.not_mem_nil, false_iff]
      rintro ⟨w, hw, hp⟩
      simp only [Word] at hw
      subst hw
      simp at hp
  | .op .seq cs, hnd, hne => by
    have hl := mainList cs (by simpa [actionsOf] using hnd) hne.2
    intro u hu
    obtain ⟨h1, h2, h3⟩ := seq_main cs hl (by simpa [actionsOf] using hnd) hne.2 u hu
    exact ⟨h3 hne.1, h1, h2⟩
  | .op .alt cs, hnd, hne => by
    have hl := mainList cs (by simpa [actionsOf] using hnd) hne.2
    intro u hu
    obtain ⟨h1, h2, h3⟩ := alt_main cs hl (by simpa [actionsOf] using hnd) hne.2 u (.inl hu)
    refine ⟨h1, ?_, h2⟩
    by_cases hn : u = []
    · subst hn
      constructor
      · intro h
        exfalso
        obtain ⟨w, hw⟩ := exists_word (.op .alt cs) hne
        cases w with
        | nil => exact word_ne_nil _ hne hw
        | cons x xs =>
          have : x ∈ (altNext (nextActionsList [] cs)).1 :=
            (h2 x).2 ⟨x :: xs, hw, by simp⟩
          have h' : (altNext (nextActionsList [] cs)).1 = [] := h
          rw [h'] at this
          simp at this
      · intro h; exact absurd h (word_ne_nil _ hne)
    · exact h3 hn
  | .op .par cs, hnd, hne => by
    have hl := mainList cs (by simpa [actionsOf] using hnd) hne.2
    intro u hu
    exact par_main cs hl (by simpa [actionsOf] using hnd) u hu
theorem mainList : ∀ (cs : List Tree), (actionsOfList cs).Nodup → NonEmptyOpsList cs →
    ∀ c ∈ cs, Main c
  | [], _, _, c, hc => by simp at hc
  | d :: cs, hnd, hne, c, hc => by
    simp only [actionsOfList] at hnd
    by_cases h : c = d
    · exact h ▸ main d (List.nodup_append.1 hnd).1 hne.1
    · have : c ∈ cs := by simpa [h] using hc
      exact mainList cs (List.nodup_append.1 hnd).2.1 hne.2 c this
end

theorem run_iff {g : Alg} {t : Tree} (hg : g.root = some t) (hd : Distinct t)
    (hn : NonEmptyOps t) (ex : List Int) : Run g ex ↔ Pre t ex := by
  have hm := main t (by rw [← objectives_eq]; exact hd) hn
  have hoff : ∀ u a, Offers g u a ↔ a ∈ (nextActions u t).1 := by
    intro u a
    simp [Offers, searchNext, hg]
  constructor
  · intro h
    induction h with
    | start =>
      obtain ⟨w, hw⟩ := exists_word t hn
      exact ⟨w, hw, by simp⟩
    | step _ ho ih => exact ((hm _ ih).nxt _).1 ((hoff _ _).1 ho)
  · intro h
    have aux : ∀ (n : Nat) (u : List Int), u.length = n → Pre t u → Run g u := by
      intro n
      induction n with
      | zero =>
        intro u hu _
        have : u = [] := by simpa using hu
        subst this
        exact .start
      | succ n ih =>
        intro u hu hp
        obtain ⟨v, a, rfl⟩ : ∃ v a, u = v ++ [a] := by
          have : u ≠ [] := by rintro rfl; simp at hu
          exact ⟨u.dropLast, u.getLast this, (List.dropLast_concat_getLast this).symm⟩
        have hv : Pre t v := hp.of_prefix (List.prefix_append _ _)
        exact .step (ih v (by simpa using hu) hv) ((hoff _ _).2 (((hm v hv).nxt a).2 hp))
    exact aux _ ex rfl h

end Verif.Algebra
