import Verif.Msg.Model
import Verif.Msg.Spec

/-! Helper lemmas for the message properties. -/

namespace Verif.Msg

open Verif

/-! ### split -/

/-- All items that repeated `getline` calls extract. -/
def items (d : Char) (s : Str) : List Str :=
  if _h : s = [] then []
  else s.takeWhile (· != d) :: items d ((s.dropWhile (· != d)).drop 1)
termination_by s.length
decreasing_by
  have h1 : (s.dropWhile (· != d)).length ≤ s.length := (List.dropWhile_suffix _).length_le
  have : 0 < s.length := List.length_pos_iff.mpr _h
  rw [List.length_drop]; omega

/-- Does the trailing empty token have to be added? -/
def trailing (d : Char) (s : Str) : Bool := s.isEmpty || s.getLast? == some d

theorem dropWhile_ne_cases (d : Char) (s : Str) :
    (d ∉ s ∧ s.takeWhile (· != d) = s ∧ s.dropWhile (· != d) = []) ∨
    (∃ rest, s = s.takeWhile (· != d) ++ d :: rest ∧ s.dropWhile (· != d) = d :: rest) := by
  induction s with
  | nil => left; simp
  | cons c s ih =>
    by_cases hc : c = d
    · subst hc; right; exact ⟨s, by simp, by simp⟩
    · have hb : (c != d) = true := by simpa using hc
      rcases ih with ⟨h1, h2, h3⟩ | ⟨r, h1, h2⟩
      · left
        refine ⟨?_, by simp [hb, h2], by simp [hb, h3]⟩
        simp only [List.mem_cons, not_or]; exact ⟨fun e => hc e.symm, h1⟩
      · right
        refine ⟨r, ?_, by simp [hb, h2]⟩
        simp only [List.takeWhile_cons, hb, if_true, List.cons_append]
        rw [← h1]

theorem not_mem_takeWhile_ne (d : Char) (s : Str) : d ∉ s.takeWhile (· != d) := by
  induction s with
  | nil => simp
  | cons c s ih =>
    simp only [List.takeWhile_cons]
    split
    · next h =>
      simp only [List.mem_cons, not_or]
      exact ⟨fun e => by simp [e] at h, ih⟩
    · simp

/-- The complete token list. -/
def tokensOf (d : Char) (s : Str) : List Str :=
  items d s ++ (if trailing d s then [[]] else [])

theorem join_cons_of_ne {d : Char} {t : Str} {ts : List Str} (h : ts ≠ []) :
    join d (t :: ts) = t ++ d :: join d ts := by
  cases ts with
  | nil => exact absurd rfl h
  | cons a b => rfl

theorem items_nil (d : Char) : items d [] = [] := by
  unfold items; simp

theorem tokensOf_nil (d : Char) : tokensOf d [] = [[]] := by
  simp [tokensOf, items_nil, trailing]

theorem tokensOf_clean {d : Char} {s : Str} (hs : d ∉ s) : tokensOf d s = [s] := by
  by_cases h : s = []
  · subst h; exact tokensOf_nil d
  · rcases dropWhile_ne_cases d s with ⟨_, h2, h3⟩ | ⟨r, h1, _⟩
    · have : trailing d s = false := by
        simp only [trailing, Bool.or_eq_false_iff]
        refine ⟨by simpa using h, ?_⟩
        simp only [beq_eq_false_iff_ne]
        intro e
        exact hs (List.mem_of_getLast? e)
      unfold tokensOf items
      simp [h, h2, h3, items_nil, this]
    · exact absurd (h1 ▸ (by simp : d ∈ s.takeWhile (· != d) ++ d :: r)) hs

theorem tokensOf_append {d : Char} {a b : Str} (ha : d ∉ a) :
    tokensOf d (a ++ d :: b) = a :: tokensOf d b := by
  have hne : a ++ d :: b ≠ [] := by simp
  have htw : (a ++ d :: b).takeWhile (· != d) = a ∧ (a ++ d :: b).dropWhile (· != d) = d :: b := by
    induction a with
    | nil => simp
    | cons c a ih =>
      simp only [List.mem_cons, not_or] at ha
      have hb : (c != d) = true := by simpa using fun e => ha.1 e.symm
      have := ih ha.2 (by simp)
      simp [hb, this]
  have htr : trailing d (a ++ d :: b) = trailing d b := by
    unfold trailing
    cases b with
    | nil => simp
    | cons c b => simp [List.getLast?_append, List.getLast?_cons]
  unfold tokensOf
  rw [items, dif_neg hne, htw.1, htw.2, htr]
  simp

theorem tokensOf_ne_nil (d : Char) (s : Str) : tokensOf d s ≠ [] := by
  rcases dropWhile_ne_cases d s with ⟨h, _⟩ | ⟨r, h1, _⟩
  · rw [tokensOf_clean h]; simp
  · rw [h1, tokensOf_append (not_mem_takeWhile_ne d s)]; simp

theorem tokensOf_isSplit (d : Char) (s : Str) : IsSplit d s (tokensOf d s) := by
  induction hn : s.length using Nat.strongRecOn generalizing s with
  | ind n ih =>
    rcases dropWhile_ne_cases d s with ⟨h1, _, _⟩ | ⟨r, h1, _⟩
    · rw [tokensOf_clean h1]
      exact ⟨by simp, by simpa using h1, rfl⟩
    · have hlt : r.length < n := by rw [← hn, h1]; simp; omega
      obtain ⟨hr1, hr2, hr3⟩ := ih _ hlt r rfl
      have ha := not_mem_takeWhile_ne d s
      generalize s.takeWhile (· != d) = a at *
      subst h1
      rw [tokensOf_append ha]
      refine ⟨by simp, ?_, ?_⟩
      · intro t ht
        rcases List.mem_cons.mp ht with rfl | ht
        · exact ha
        · exact hr2 t ht
      · rw [join_cons_of_ne hr1, hr3]

theorem isSplit_eq_tokensOf {d : Char} {s : Str} {ts : List Str} (h : IsSplit d s ts) :
    ts = tokensOf d s := by
  induction ts generalizing s with
  | nil => exact absurd rfl h.1
  | cons t ts ih =>
    obtain ⟨_, h2, h3⟩ := h
    have ht := h2 t (by simp)
    cases ts with
    | nil =>
      simp only [join] at h3
      subst h3
      rw [tokensOf_clean ht]
    | cons u us =>
      rw [join_cons_of_ne (by simp)] at h3
      subst h3
      rw [tokensOf_append ht]
      congr 1
      exact ih ⟨by simp, fun t ht => h2 t (by simp [ht]), rfl⟩

theorem getline_rest_length {d : Char} {s : Str} (h : s ≠ []) :
    ((s.dropWhile (· != d)).drop 1).length < s.length := by
  have h1 : (s.dropWhile (· != d)).length ≤ s.length := (List.dropWhile_suffix _).length_le
  have : 0 < s.length := List.length_pos_iff.mpr h
  rw [List.length_drop]; omega

theorem splitLoop_noapp (d : Char) (maxTok : Nat) :
    ∀ (fuel : Nat) (s : Str) (tokens : List Str) (cnt : Nat), s.length < fuel → cnt < maxTok →
      splitLoop d maxTok false fuel s tokens cnt =
        .ok (tokens ++ (items d s).take (maxTok - cnt),
             cnt + min (items d s).length (maxTok - cnt)) := by
  intro fuel
  induction fuel with
  | zero => intro s _ _ h; omega
  | succ fuel ih =>
    intro s tokens cnt hf hc
    by_cases hs : s = []
    · subst hs
      simp [splitLoop, getline, items_nil]
    · have hse : s.isEmpty = false := by simpa using hs
      have hr := getline_rest_length (d := d) hs
      rw [items, dif_neg hs]
      simp only [splitLoop, getline, hse, Bool.false_eq_true, if_false, hc, if_true,
        Outcome.bind_ok, Bool.not_false, Bool.and_true]
      by_cases hm : cnt + 1 = maxTok
      · have : maxTok - cnt = 1 := by omega
        simp [hm, this]
      · have hmb : (cnt + 1 == maxTok) = false := by simpa using hm
        simp only [hmb, Bool.false_eq_true, if_false]
        rw [ih _ _ _ (by omega) (by omega)]
        have e : maxTok - cnt = (maxTok - (cnt + 1)) + 1 := by omega
        rw [e, List.take_succ_cons, List.length_cons]
        congr 2
        · simp
        · omega

theorem split_noapp (s : Str) (d : Char) {maxTok : Nat} (hm : 0 < maxTok) :
    split s d maxTok false = .ok ((tokensOf d s).take maxTok) := by
  unfold split
  rw [splitLoop_noapp d maxTok _ _ _ _ (by omega) hm]
  simp only [Outcome.bind_ok, List.nil_append, Nat.zero_add, Nat.sub_zero]
  have ht : (s.isEmpty || s.getLast? == some d) = trailing d s := rfl
  rw [ht]
  unfold tokensOf
  by_cases h1 : (items d s).length < maxTok
  · have e1 : min (items d s).length maxTok = (items d s).length := by omega
    have e2 : (items d s).take maxTok = items d s := List.take_of_length_le (by omega)
    cases htr : trailing d s
    · simp
    · have : List.take maxTok (items d s ++ [[]]) = items d s ++ [[]] :=
        List.take_of_length_le (by simp; omega)
      simp [e1, h1, e2, this]
  · have e1 : min (items d s).length maxTok = maxTok := by omega
    simp only [e1, Nat.lt_irrefl, decide_false, Bool.false_and, Bool.false_eq_true, if_false]
    rw [List.take_append_of_le_length (by omega)]

/-- A list of tokens with everything from index `n` on put into one token. -/
def capTokens : Nat → List Str → List Str
  | _, [] => []
  | 0, t :: ts => [t ++ ts.flatten]
  | n + 1, t :: ts => t :: capTokens n ts

theorem capTokens_eq : ∀ (n : Nat) (ts : List Str),
    capTokens n ts = if ts.length ≤ n then ts else ts.take n ++ [(ts.drop n).flatten]
  | 0, [] => rfl
  | _ + 1, [] => rfl
  | 0, t :: ts => by simp [capTokens]
  | n + 1, t :: ts => by
    simp only [capTokens, capTokens_eq n ts, List.length_cons, Nat.add_le_add_iff_right]
    split <;> simp

theorem capTokens_snoc_nil : ∀ (n : Nat) (ts : List Str),
    capTokens n (ts ++ [[]]) = if ts.length ≤ n then capTokens n ts ++ [[]] else capTokens n ts
  | 0, [] => rfl
  | _ + 1, [] => by simp [capTokens]
  | 0, t :: ts => by simp [capTokens]
  | n + 1, t :: ts => by
    simp only [List.cons_append, capTokens, capTokens_snoc_nil n ts, List.length_cons,
      Nat.add_le_add_iff_right]
    split <;> rfl

theorem splitLoop_full (d : Char) (maxTok : Nat) :
    ∀ (fuel : Nat) (s : Str) (pre : List Str) (b : Str) (cnt : Nat), s.length < fuel → maxTok ≤ cnt →
      splitLoop d maxTok true fuel s (pre ++ [b]) cnt =
        .ok (pre ++ [b ++ (items d s).flatten], cnt + (items d s).length) := by
  intro fuel
  induction fuel with
  | zero => intro s _ _ _ h; omega
  | succ fuel ih =>
    intro s pre b cnt hf hc
    by_cases hs : s = []
    · subst hs
      simp [splitLoop, getline, items_nil]
    · have hse : s.isEmpty = false := by simpa using hs
      have hr := getline_rest_length (d := d) hs
      rw [items, dif_neg hs]
      have hnc : ¬ cnt < maxTok := by omega
      have hb : appendToBack (pre ++ [b]) (s.takeWhile (· != d)) =
          .ok (pre ++ [b ++ s.takeWhile (· != d)]) := by
        simp [appendToBack]
      simp only [splitLoop, getline, hse, Bool.false_eq_true, if_false, if_neg hnc, hb,
        Outcome.bind_ok, Bool.not_true, Bool.and_false]
      rw [ih _ _ _ _ (by omega) (by omega)]
      simp
      omega

theorem splitLoop_app (d : Char) (maxTok : Nat) :
    ∀ (fuel : Nat) (s : Str) (tokens : List Str) (cnt n : Nat), s.length < fuel →
      cnt + n + 1 = maxTok →
      splitLoop d maxTok true fuel s tokens cnt =
        .ok (tokens ++ capTokens n (items d s), cnt + (items d s).length) := by
  intro fuel
  induction fuel with
  | zero => intro s _ _ _ h; omega
  | succ fuel ih =>
    intro s tokens cnt n hf hn
    by_cases hs : s = []
    · subst hs
      simp [splitLoop, getline, items_nil, capTokens]
    · have hse : s.isEmpty = false := by simpa using hs
      have hr := getline_rest_length (d := d) hs
      rw [items, dif_neg hs]
      have hc : cnt < maxTok := by omega
      simp only [splitLoop, getline, hse, Bool.false_eq_true, if_false, hc, if_true,
        Outcome.bind_ok, Bool.not_true, Bool.and_false]
      cases n with
      | zero =>
        rw [splitLoop_full d maxTok _ _ _ _ _ (by omega) (by omega)]
        simp [capTokens]
        omega
      | succ n =>
        rw [ih _ _ _ n (by omega) (by omega)]
        simp [capTokens]
        omega

theorem split_app (s : Str) (d : Char) (n : Nat) :
    split s d (n + 1) true = .ok (capTokens n (tokensOf d s)) := by
  unfold split
  rw [splitLoop_app d (n + 1) _ _ _ _ n (by omega) (by omega)]
  simp only [Outcome.bind_ok, List.nil_append, Nat.zero_add]
  have ht : (s.isEmpty || s.getLast? == some d) = trailing d s := rfl
  rw [ht]
  unfold tokensOf
  cases htr : trailing d s
  · simp
  · simp only [Bool.and_true, decide_eq_true_eq, if_true, capTokens_snoc_nil, Nat.lt_succ_iff]
    split <;> rfl

theorem split_default (s : Str) (d : Char) :
    split s d = .ok ((tokensOf d s).take 4294967295) := split_noapp s d (by decide)

/-! ### the attribute parser -/

theorem join5 (d : Char) (a b c e f : Str) :
    join d [a, b, c, e, f] = a ++ d :: (b ++ d :: (c ++ d :: (e ++ d :: f))) := rfl

theorem take_eq_five {l : List Str} {a b c e f : Str} {n : Nat} (hn : 5 < n)
    (h : l.take n = [a, b, c, e, f]) : l = [a, b, c, e, f] := by
  have hl : (l.take n).length = 5 := by rw [h]; rfl
  rw [List.length_take] at hl
  rw [← h, List.take_of_length_le (by omega)]

theorem attrs_set_valid (m : Attrs) (ct ds gr ei si : Str) :
    (m.set ct ds gr ei si).valid = true ↔ ct ≠ [] ∧ ds ≠ [] ∧ ei ≠ [] ∧ si ≠ [] := by
  simp only [Attrs.set]
  cases ct <;> cases ds <;> cases ei <;> cases si <;> simp

theorem attrs_set_eq (m : Attrs) {ct ds gr ei si : Str}
    (h : ct ≠ [] ∧ ds ≠ [] ∧ ei ≠ [] ∧ si ≠ []) :
    m.set ct ds gr ei si =
      { valid := true, str := attrString ct ds gr ei si, contentType := ct, descriptor := ds,
        group := gr, entityId := ei, serviceId := si } := by
  obtain ⟨h1, h2, h3, h4⟩ := h
  cases ct <;> cases ds <;> cases ei <;> cases si <;> simp_all [Attrs.set]

/-- Complete description of the attribute parser started on a fresh object. -/
theorem attrs_setFromString_valid {s : Str} {a : Attrs} :
    ({} : Attrs).setFromString s = .ok a ∧ a.valid = true ↔
      ∃ ct ds gr ei si, s = attrString ct ds gr ei si ∧
        '|' ∉ ct ∧ '|' ∉ ds ∧ '|' ∉ gr ∧ '|' ∉ ei ∧ '|' ∉ si ∧
        ct ≠ [] ∧ ds ≠ [] ∧ ei ≠ [] ∧ si ≠ [] ∧
        a = { valid := true, str := s, contentType := ct, descriptor := ds, group := gr,
              entityId := ei, serviceId := si } := by
  constructor
  · rintro ⟨h, hv⟩
    unfold Attrs.setFromString at h
    split at h
    · unfold Attrs.parse at h
      rw [split_default] at h
      simp only [Outcome.bind_ok] at h
      split at h
      · next ct ds gr ei si heq =>
        have ht := take_eq_five (by decide) heq
        have hsp := tokensOf_isSplit '|' s
        rw [ht] at hsp
        obtain ⟨_, hc, hj⟩ := hsp
        simp only [Outcome.ok.injEq] at h
        subst h
        have hne := (attrs_set_valid _ _ _ _ _ _).mp hv
        rw [attrs_set_eq _ hne]
        refine ⟨ct, ds, gr, ei, si, hj.symm, hc _ (by simp), hc _ (by simp), hc _ (by simp),
          hc _ (by simp), hc _ (by simp), hne.1, hne.2.1, hne.2.2.1, hne.2.2.2, ?_⟩
        rw [← hj]; rfl
      · simp only [Outcome.ok.injEq] at h
        subst h; simp at hv
    · simp only [Outcome.ok.injEq] at h
      subst h; simp at hv
  · rintro ⟨ct, ds, gr, ei, si, hs, c1, c2, c3, c4, c5, n1, n2, n3, n4, ha⟩
    have hsplit : IsSplit '|' s [ct, ds, gr, ei, si] := by
      refine ⟨by simp, ?_, by rw [hs]; rfl⟩
      intro t ht
      simp only [List.mem_cons, List.not_mem_nil, or_false] at ht
      rcases ht with rfl | rfl | rfl | rfl | rfl <;> assumption
    have ht := isSplit_eq_tokensOf hsplit
    have hlen : s.length ≥ 8 := by
      have l1 := List.length_pos_iff.mpr n1
      have l2 := List.length_pos_iff.mpr n2
      have l3 := List.length_pos_iff.mpr n3
      have l4 := List.length_pos_iff.mpr n4
      rw [hs]; simp only [attrString, List.length_append, List.length_cons]; omega
    constructor
    · unfold Attrs.setFromString
      rw [if_pos hlen]
      unfold Attrs.parse
      rw [split_default, ← ht]
      simp only [Outcome.bind_ok, List.take_of_length_le (show [ct, ds, gr, ei, si].length ≤ 4294967295 by
        simp)]
      rw [attrs_set_eq _ ⟨n1, n2, n3, n4⟩, ha, hs]
    · rw [ha]

theorem attrs_setFromString_ok (m : Attrs) (s : Str) : ∃ a, m.setFromString s = .ok a := by
  unfold Attrs.setFromString
  split
  · unfold Attrs.parse
    rw [split_default]
    simp only [Outcome.bind_ok]
    split <;> exact ⟨_, rfl⟩
  · exact ⟨_, rfl⟩

end Verif.Msg

namespace Verif.Msg
open Verif

/-! ### the message parser -/

theorem isValidAddress_iff (a : Str) : isValidAddress a = true ↔ a ≠ [] ∧ '$' ∉ a := by
  unfold isValidAddress
  cases a with
  | nil => simp
  | cons c a =>
    have : ¬ ((c :: a).length < 1) := by simp
    simp only [this, if_false]
    cases h : findChar '$' (c :: a) with
    | none => simpa using findChar_eq_none.mp h
    | some i =>
      obtain ⟨x, y, e, _, _⟩ := findChar_eq_some h
      have : '$' ∈ c :: a := by rw [e]; simp
      simp only [Option.isSome_some, if_true, Bool.false_eq_true, false_iff, not_and]
      intro _ hn; exact hn this

theorem not_mem_attrString {ct ds gr ei si : Str} (h1 : '$' ∉ ct) (h2 : '$' ∉ ds) (h3 : '$' ∉ gr)
    (h4 : '$' ∉ ei) (h5 : '$' ∉ si) : '$' ∉ attrString ct ds gr ei si := by
  simp only [attrString, List.mem_append, List.mem_cons, not_or]
  exact ⟨h1, by decide, h2, by decide, h3, by decide, h4, by decide, h5⟩

theorem wireForm_eq {s ad ct ds gr ei si p : Str} (h : WireForm s ad ct ds gr ei si p) :
    s = ad ++ '$' :: (attrString ct ds gr ei si ++ '$' :: p) := by
  rw [h.eq]; simp [attrString]

/-- A string of the wire grammar is accepted, with the fields of the grammar. -/
theorem parse_of_wireForm (m : AAMsg) {s ad ct ds gr ei si p : Str}
    (h : WireForm s ad ct ds gr ei si p) :
    m.setFromString s = .ok
      { valid := true, str := s, address := ad, payload := p,
        attrs := some { valid := true, str := attrString ct ds gr ei si, contentType := ct,
                        descriptor := ds, group := gr, entityId := ei, serviceId := si } } := by
  have hs := wireForm_eq h
  have l1 := List.length_pos_iff.mpr h.ct_ne
  have l2 := List.length_pos_iff.mpr h.ds_ne
  have l3 := List.length_pos_iff.mpr h.ei_ne
  have l4 := List.length_pos_iff.mpr h.si_ne
  have l5 := List.length_pos_iff.mpr h.payload_ne
  have hA := not_mem_attrString h.ct_clean.1 h.ds_clean.1 h.gr_clean.1 h.ei_clean.1 h.si_clean.1
  have hAlen : (attrString ct ds gr ei si).length ≥ 8 := by
    simp only [attrString, List.length_append, List.length_cons]; omega
  have hattr := (attrs_setFromString_valid (s := attrString ct ds gr ei si)
    (a := { valid := true, str := attrString ct ds gr ei si, contentType := ct, descriptor := ds,
            group := gr, entityId := ei, serviceId := si })).mpr
    ⟨ct, ds, gr, ei, si, rfl, h.ct_clean.2, h.ds_clean.2, h.gr_clean.2, h.ei_clean.2,
      h.si_clean.2, h.ct_ne, h.ds_ne, h.ei_ne, h.si_ne, rfl⟩
  generalize attrString ct ds gr ei si = A at *
  have hlen : s.length = ad.length + 1 + (A.length + 1 + p.length) := by
    rw [hs]; simp only [List.length_append, List.length_cons]; omega
  unfold AAMsg.setFromString
  rw [if_pos (by omega)]
  unfold AAMsg.parse
  have f1 : findChar '$' s = some ad.length := by rw [hs]; exact findChar_append h.address_clean
  have d1 : s.drop (ad.length + 1) = A ++ '$' :: p := by
    rw [hs, ← List.drop_drop, List.drop_left]; rfl
  have f2 : findChar '$' (s.drop (ad.length + 1)) = some A.length := by
    rw [d1]; exact findChar_append hA
  have d2 : s.drop (A.length + (ad.length + 1) + 1) = p := by
    rw [show A.length + (ad.length + 1) + 1 = (ad.length + 1) + (A.length + 1) by omega,
      ← List.drop_drop, d1, ← List.drop_drop, List.drop_left]; rfl
  rw [f1]
  simp only
  rw [if_neg (by omega), f2]
  simp only [Option.map_some]
  have hj : (A.length + (ad.length + 1) == s.length - 1) = false := by
    simp only [beq_eq_false_iff_ne]; omega
  rw [hj]
  simp only [Bool.false_eq_true, if_false]
  have t1 : (s.drop (ad.length + 1)).take (A.length + (ad.length + 1) - (ad.length + 1)) = A := by
    rw [d1, Nat.add_sub_cancel, List.take_left]
  rw [t1, hattr.1]
  have t2 : s.take ad.length = ad := by rw [hs, List.take_left]
  have t3 : List.take (s.length - (A.length + (ad.length + 1) + 1)) p = p :=
    List.take_of_length_le (by omega)
  simp only [Outcome.bind_ok, Bool.not_true, Bool.false_eq_true, if_false]
  rw [d2, t2, t3]

/-- An accepted string is of the wire grammar, with the reported fields. -/
theorem wireForm_of_parse {m m' : AAMsg} {s : Str} (h : m.setFromString s = .ok m')
    (hv : m'.valid = true) :
    m'.str = s ∧ ∃ a, m'.attrs = some a ∧ a.valid = true ∧
      a.str = attrString a.contentType a.descriptor a.group a.entityId a.serviceId ∧
      WireForm s m'.address a.contentType a.descriptor a.group a.entityId a.serviceId
        m'.payload := by
  unfold AAMsg.setFromString at h
  split at h
  · next hlen =>
    unfold AAMsg.parse at h
    split at h
    · simp only [Outcome.ok.injEq] at h; subst h; simp at hv
    · next i hi =>
      obtain ⟨ad, b, hs, hadl, hadc⟩ := findChar_eq_some hi
      split at h
      · simp only [Outcome.ok.injEq] at h; subst h; simp at hv
      · next hi11 =>
        have d1 : s.drop (i + 1) = b := by
          rw [hs, ← List.drop_drop, ← hadl, List.drop_left]; rfl
        rw [d1] at h
        split at h
        · simp only [Outcome.ok.injEq] at h; subst h; simp at hv
        · next j hj =>
          simp only [Option.map_eq_some_iff] at hj
          obtain ⟨k, hk, hkj⟩ := hj
          obtain ⟨A, p, hb, hAl, hAc⟩ := findChar_eq_some hk
          split at h
          · simp only [Outcome.ok.injEq] at h; subst h; simp at hv
          · next hjl =>
            have t1 : b.take (j - (i + 1)) = A := by
              rw [hb, ← hkj, Nat.add_sub_cancel, ← hAl, List.take_left]
            rw [t1] at h
            obtain ⟨a, ha⟩ := attrs_setFromString_ok {} A
            rw [ha] at h
            simp only [Outcome.bind_ok] at h
            cases hav : a.valid with
            | false =>
              simp only [hav, Bool.not_false, if_true, Outcome.ok.injEq] at h
              subst h; simp at hv
            | true =>
              simp only [hav, Bool.not_true, Bool.false_eq_true, if_false, Outcome.ok.injEq] at h
              obtain ⟨ct, ds, gr, ei, si, hA, c1, c2, c3, c4, c5, n1, n2, n3, n4, hae⟩ :=
                attrs_setFromString_valid.mp ⟨ha, hav⟩
              have hslen : s.length = ad.length + 1 + (A.length + 1 + p.length) := by
                rw [hs, hb]; simp only [List.length_append, List.length_cons]; omega
              have d2 : s.drop (j + 1) = p := by
                rw [← hkj, show k + (i + 1) + 1 = (i + 1) + (k + 1) by omega, ← List.drop_drop, d1,
                  hb, ← List.drop_drop, ← hAl, List.drop_left]; rfl
              have t2 : s.take i = ad := by rw [hs, ← hadl, List.take_left]
              have t3 : p.take (s.length - (j + 1)) = p := List.take_of_length_le (by omega)
              rw [d2, t2, t3] at h
              subst h
              refine ⟨rfl, a, rfl, hav, ?_, ?_⟩
              · rw [hae]; exact hA
              · have hp : p ≠ [] := by
                  intro e
                  simp only [beq_iff_eq] at hjl
                  have : p.length = 0 := by rw [e]; rfl
                  omega
                have hmem : ∀ x, x ∈ ct ∨ x ∈ ds ∨ x ∈ gr ∨ x ∈ ei ∨ x ∈ si → x ∈ A := by
                  intro x hx
                  rw [hA]
                  simp only [attrString, List.mem_append, List.mem_cons]
                  rcases hx with hx | hx | hx | hx | hx <;> simp [hx]
                subst hae
                refine ⟨?_, hadc, ⟨fun hx => hAc (hmem _ (by simp [hx])), c1⟩,
                  ⟨fun hx => hAc (hmem _ (by simp [hx])), c2⟩,
                  ⟨fun hx => hAc (hmem _ (by simp [hx])), c3⟩,
                  ⟨fun hx => hAc (hmem _ (by simp [hx])), c4⟩,
                  ⟨fun hx => hAc (hmem _ (by simp [hx])), c5⟩, n1, n2, n3, n4, hp⟩
                rw [hs, hb, hA]; simp [attrString]
  · simp only [Outcome.ok.injEq] at h; subst h; simp at hv

theorem setFromString_ok (m : AAMsg) (s : Str) : ∃ m', m.setFromString s = .ok m' := by
  unfold AAMsg.setFromString
  split
  · unfold AAMsg.parse
    split
    · exact ⟨_, rfl⟩
    · split
      · exact ⟨_, rfl⟩
      · split
        · exact ⟨_, rfl⟩
        · split
          · exact ⟨_, rfl⟩
          · next i _ _ _ j _ _ =>
            obtain ⟨a, ha⟩ := attrs_setFromString_ok {} ((s.drop (i + 1)).take (j - (i + 1)))
            rw [ha]
            simp only [Outcome.bind_ok]
            split <;> exact ⟨_, rfl⟩
  · exact ⟨_, rfl⟩

theorem set_valid_iff (m : AAMsg) (ad ct ds gr ei si p : Str) :
    (m.set ad ct ds gr ei si p).valid = true ↔
      (ad ≠ [] ∧ '$' ∉ ad) ∧ p ≠ [] ∧ ct ≠ [] ∧ ds ≠ [] ∧ ei ≠ [] ∧ si ≠ [] := by
  unfold AAMsg.set
  by_cases h1 : isValidAddress ad = true
  · have h1' := (isValidAddress_iff ad).mp h1
    cases p with
    | nil => simp [h1]
    | cons c p =>
      by_cases h2 : (({} : Attrs).set ct ds gr ei si).valid = true
      · have := (attrs_set_valid _ _ _ _ _ _).mp h2
        simp [h1, h1', h2, this]
      · have h2' := fun hh => h2 ((attrs_set_valid {} ct ds gr ei si).mpr hh)
        simp only [Bool.not_eq_true] at h2
        simp only [h1, Bool.not_true, Bool.false_eq_true, if_false, h2]
        simp
        intro _ _ h3 h4 h5
        exact Classical.byContradiction fun h6 => h2' ⟨h3, h4, h5, h6⟩
  · have h1' := fun hh => h1 ((isValidAddress_iff ad).mpr hh)
    simp only [Bool.not_eq_true] at h1
    simp only [h1, Bool.not_false, if_true]
    simp
    intro h3 h4
    exact absurd ⟨h3, h4⟩ h1'

theorem set_eq (m : AAMsg) {ad ct ds gr ei si p : Str}
    (h : (ad ≠ [] ∧ '$' ∉ ad) ∧ p ≠ [] ∧ ct ≠ [] ∧ ds ≠ [] ∧ ei ≠ [] ∧ si ≠ []) :
    m.set ad ct ds gr ei si p =
      { valid := true, str := wireString ad (attrString ct ds gr ei si) p, address := ad,
        payload := p, attrs := some
          { valid := true, str := attrString ct ds gr ei si, contentType := ct, descriptor := ds,
            group := gr, entityId := ei, serviceId := si } } := by
  obtain ⟨h1, h2, h3⟩ := h
  unfold AAMsg.set
  have := (isValidAddress_iff ad).mpr h1
  have hp : ¬ p.length < 1 := by have := List.length_pos_iff.mpr h2; omega
  rw [attrs_set_eq _ h3]
  simp [this, hp]

end Verif.Msg
