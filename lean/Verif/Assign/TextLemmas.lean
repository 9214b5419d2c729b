import Verif.Assign.Spec
import Verif.Algebra.Props

/-! Lemmas about the rewriting of composition and relationship texts. -/

namespace Verif.Assign

open Verif.Algebra (Tree Written WrittenBody Blanks idText Occurs)

theorem toStringInt_eq (a : Int) : toStringInt a = idText a := rfl

theorem takeWhile_decimal (n : Nat) (r : Str) (h : ∀ c r', r = c :: r' → c.isDigit = false) :
    (decimal n ++ r).takeWhile Char.isDigit = decimal n := by
  rw [List.takeWhile_append_of_pos (fun c hc => decimal_isDigit hc)]
  cases r with
  | nil => simp
  | cons c r' => simp [h c r' rfl]

theorem isDigit_not_space {c : Char} (h : c.isDigit = true) : isSpaceC c = false := by
  cases hs : isSpaceC c with
  | false => rfl
  | true =>
    exfalso
    simp only [isSpaceC, Bool.or_eq_true, beq_iff_eq] at hs
    rcases hs with ((((rfl | rfl) | rfl) | rfl) | rfl) | rfl <;> revert h <;> decide

theorem decimal_cons (n : Nat) : ∃ c r, decimal n = c :: r ∧ c.isDigit = true := by
  match h : decimal n with
  | [] => exact absurd h (decimal_ne_nil n)
  | c :: r => exact ⟨c, r, rfl, decimal_isDigit (n := n) (by simp [h])⟩

theorem stollDigits_decimal (n : Nat) (neg : Bool) (r : Str)
    (h : ∀ c r', r = c :: r' → c.isDigit = false)
    (hf : Fits (if neg then -(n : Int) else (n : Int))) :
    stollDigits neg (decimal n ++ r) = .ok (if neg then -(n : Int) else (n : Int)) := by
  unfold stollDigits
  simp only [takeWhile_decimal n r h, decimal_ne_nil, if_false, decimalValue_decimal]
  rw [if_neg]
  unfold Fits at hf
  omega

theorem stoll_toStringInt (a : Int) (r : Str) (h : ∀ c r', r = c :: r' → c.isDigit = false)
    (hf : Fits a) : stoll (toStringInt a ++ r) = .ok a := by
  unfold toStringInt
  split
  · next hneg =>
    have hd : ('-' :: decimal a.natAbs ++ r).dropWhile isSpaceC = '-' :: (decimal a.natAbs ++ r) := by
      simp [isSpaceC]
    unfold stoll
    rw [hd]
    simp only
    have e : (if true = true then -((a.natAbs : Nat) : Int) else (a.natAbs : Int)) = a := by
      simp only [if_true]; omega
    rw [stollDigits_decimal a.natAbs true r h (by rw [e]; exact hf), e]
  · next hneg =>
    obtain ⟨c, q, hcq, hc⟩ := decimal_cons a.natAbs
    have hd : (decimal a.natAbs ++ r).dropWhile isSpaceC = decimal a.natAbs ++ r := by
      simp [hcq, isDigit_not_space hc]
    have e : (if false = true then -((a.natAbs : Nat) : Int) else (a.natAbs : Int)) = a := by
      simp only [Bool.false_eq_true, if_false]; omega
    have key := stollDigits_decimal a.natAbs false r h (by rw [e]; exact hf)
    rw [e] at key
    unfold stoll
    rw [hd]
    rw [hcq, List.cons_append] at key ⊢
    split
    · next heq =>
      simp only [List.cons.injEq] at heq
      rw [heq.1] at hc; exact absurd hc (by decide)
    · next heq =>
      simp only [List.cons.injEq] at heq
      rw [heq.1] at hc; exact absurd hc (by decide)
    · exact key

theorem toStringInt_no_term {a : Int} : ' ' ∉ toStringInt a ∧ ')' ∉ toStringInt a := by
  have hd : ∀ c : Char, c.isDigit = false → c ∉ decimal a.natAbs := by
    intro c hc hm
    rw [decimal_isDigit hm] at hc
    simp at hc
  unfold toStringInt
  split <;> simp [hd ' ' (by decide), hd ')' (by decide)]

theorem findChar_append_right {c : Char} {a b : Str} (h : c ∉ a) :
    findChar c (a ++ b) = (findChar c b).map (· + a.length) := by
  induction a with
  | nil => simp [findChar]
  | cons x xs ih =>
    simp only [List.mem_cons, not_or] at h
    have hx : (x == c) = false := by simpa using fun e => h.1 e.symm
    have := ih h.2
    simp only [findChar] at this ⊢
    simp only [List.cons_append, List.findIdx?_cons, hx, Bool.false_eq_true, if_false, this,
      Option.map_map]
    congr 1

/-- The id is followed by a terminator. -/
theorem positionAfterId_eq {pre id rest : Str} {c : Char} (h1 : ' ' ∉ id) (h2 : ')' ∉ id)
    (hc : c = ' ' ∨ c = ')') :
    positionAfterId (pre ++ id ++ c :: rest) pre.length = some (pre.length + id.length) := by
  have hd : (pre ++ id ++ c :: rest).drop pre.length = id ++ c :: rest := by
    rw [List.append_assoc, List.drop_left]
  unfold positionAfterId
  rw [hd, findChar_append_right h1, findChar_append_right h2]
  have zero : ∀ x : Char, findChar x (x :: rest) = some 0 := by
    intro x; simp [findChar, List.findIdx?_cons]
  have other : ∀ x y : Char, x ≠ y → findChar x (y :: rest) = (findChar x rest).map (· + 1) := by
    intro x y hxy
    have : (y == x) = false := by simpa using fun e => hxy e.symm
    simp [findChar, List.findIdx?_cons, this]
  rcases hc with rfl | rfl
  · rw [zero, other ')' ' ' (by decide)]
    rcases findChar ')' rest with _ | k
    · simp
    · simp
  · rw [zero, other ' ' ')' (by decide)]
    rcases findChar ' ' rest with _ | k
    · simp
    · simp

/-- What the two loops see at the next reference. -/
theorem next_ref {cs : Str} {n : Int} {c : Char} {rest : Str} (hcs : 'p' ∉ cs)
    (hc : c = ' ' ∨ c = ')') (hn : Fits n) :
    findChar 'p' (cs ++ pRef n ++ c :: rest) = some cs.length ∧
    (cs ++ pRef n ++ c :: rest).take cs.length = cs ∧
    (cs ++ pRef n ++ c :: rest).take (cs.length + 1) = cs ++ ['p'] ∧
    positionAfterId (cs ++ pRef n ++ c :: rest) (cs.length + 1) =
      some (cs.length + 1 + (idText n).length) ∧
    stoll (substrLen (cs ++ pRef n ++ c :: rest) (cs.length + 1)
      (some (cs.length + 1 + (idText n).length))) = .ok n ∧
    (cs ++ pRef n ++ c :: rest).drop (cs.length + 1 + (idText n).length) = c :: rest := by
  have e : cs ++ pRef n ++ c :: rest = (cs ++ ['p']) ++ idText n ++ c :: rest := by
    simp [pRef]
  have hl : (cs ++ ['p']).length = cs.length + 1 := by simp
  refine ⟨?_, ?_, ?_, ?_, ?_, ?_⟩
  · have : cs ++ pRef n ++ c :: rest = cs ++ 'p' :: (idText n ++ c :: rest) := by simp [pRef]
    rw [this, findChar_append hcs]
  · rw [List.append_assoc, List.take_left]
  · rw [e, List.append_assoc, ← hl, List.take_left]
  · rw [e, ← hl]
    exact positionAfterId_eq toStringInt_no_term.1 toStringInt_no_term.2 hc
  · have hd : (cs ++ pRef n ++ c :: rest).drop (cs.length + 1) = idText n ++ c :: rest := by
      rw [e, List.append_assoc, ← hl, List.drop_left]
    simp only [substrLen]
    rw [hd, show cs.length + 1 + (idText n).length = (idText n).length + (cs.length + 1) by omega,
      List.take_length_add_append, List.take_succ_cons]
    apply stoll_toStringInt n _ _ hn
    intro c' r' heq
    simp only [List.cons.injEq] at heq
    rw [← heq.1]
    rcases hc with rfl | rfl <;> decide
  · have : (cs ++ ['p'] ++ idText n).length = cs.length + 1 + (idText n).length := by simp; omega
    rw [e, ← this, List.drop_left]

/-! ### Tokens -/

theorem render_append (f : Int → Str) : ∀ (a b : List Tok), render f (a ++ b) = render f a ++ render f b
  | [], b => rfl
  | .ch c :: a, b => by simp [render, render_append f a b]
  | .ref n :: a, b => by simp [render, render_append f a b]

theorem render_chars (f : Int → Str) : ∀ (cs : Str), render f (cs.map Tok.ch) = cs
  | [] => rfl
  | c :: cs => by simp [render, render_chars f cs]

theorem refs_append : ∀ (a b : List Tok), refs (a ++ b) = refs a ++ refs b
  | [], b => rfl
  | .ch c :: a, b => by simp [refs, refs_append a b]
  | .ref n :: a, b => by simp [refs, refs_append a b]

/-- A token list is plain or has a first reference. -/
theorem tok_cases : ∀ (ts : List Tok), (∃ cs : Str, ts = cs.map Tok.ch) ∨
    ∃ (cs : Str) (n : Int) (rest : List Tok), ts = cs.map Tok.ch ++ .ref n :: rest
  | [] => .inl ⟨[], rfl⟩
  | .ref n :: ts => .inr ⟨[], n, ts, rfl⟩
  | .ch c :: ts => by
    rcases tok_cases ts with ⟨cs, rfl⟩ | ⟨cs, n, rest, rfl⟩
    · exact .inl ⟨c :: cs, rfl⟩
    · exact .inr ⟨c :: cs, n, rest, rfl⟩

theorem wf_chars : ∀ {cs : Str} {ts : List Tok}, WellFormed (cs.map Tok.ch ++ ts) ↔
    'p' ∉ cs ∧ WellFormed ts
  | [], ts => by simp
  | c :: cs, ts => by
    simp only [List.map_cons, List.cons_append, WellFormed, wf_chars (cs := cs), List.mem_cons, not_or]
    grind

theorem rewriteLoop_render (k : Int) : ∀ (fuel : Nat) (ts : List Tok) (acc : Str), WellFormed ts →
    ts ≠ [] → (render pRef ts).length < fuel →
    rewriteLoop k fuel acc (render pRef ts) =
      .text (acc ++ render (fun n => pRef (taskAndOptionId k n)) ts)
  | 0, _, _, _, _, h => by omega
  | fuel + 1, ts, acc, hw, hne, hf => by
    rcases tok_cases ts with ⟨cs, rfl⟩ | ⟨cs, n, rest, rfl⟩
    · have hcs : 'p' ∉ cs := (wf_chars (ts := []).1 (by simpa using hw)).1
      have hne' : cs ≠ [] := by simpa using hne
      simp only [render_chars, rewriteLoop, rewriteStep, if_neg hne', findChar_eq_none.2 hcs]
    · obtain ⟨hcs, hfit, ⟨r', hr'⟩, hwr⟩ := wf_chars.1 hw
      obtain ⟨c, hc, rfl⟩ : ∃ c, (c = ' ' ∨ c = ')') ∧ rest = .ch c :: r' := by
        rcases hr' with h | h
        · exact ⟨' ', .inl rfl, h⟩
        · exact ⟨')', .inr rfl, h⟩
      have hs : render pRef (cs.map Tok.ch ++ .ref n :: .ch c :: r') =
          cs ++ pRef n ++ c :: render pRef r' := by
        simp [render_append, render_chars, render]
      obtain ⟨g1, -, g3, g4, g5, g6⟩ := next_ref (rest := render pRef r') hcs hc hfit
      have hsn : cs ++ pRef n ++ c :: render pRef r' ≠ [] := by simp
      have hstep : rewriteStep k acc (cs ++ pRef n ++ c :: render pRef r') =
          .inr (acc ++ (cs ++ ['p']) ++ toStringInt (taskAndOptionId k n), c :: render pRef r') := by
        simp only [rewriteStep, if_neg hsn, g1, g3, g4, g5, g6]
      rw [hs, rewriteLoop, hstep]
      simp only
      have hlen : (c :: render pRef r').length < fuel := by
        rw [hs] at hf
        simp only [List.length_append, pRef, List.length_cons] at hf ⊢
        omega
      have := rewriteLoop_render k fuel (.ch c :: r')
        (acc ++ (cs ++ ['p']) ++ toStringInt (taskAndOptionId k n)) hwr (by simp)
        (by simpa [render] using hlen)
      rw [show render pRef (.ch c :: r') = c :: render pRef r' from rfl] at this
      rw [this]
      simp [render_append, render_chars, render, pRef, toStringInt_eq]

theorem relationLoop_render (expr : Int → Option Str) : ∀ (fuel : Nat) (ts : List Tok) (acc : Str),
    WellFormed ts → (render pRef ts).length < fuel →
    relationLoop expr fuel acc (render pRef ts) =
      .ok (if ∀ n ∈ refs ts, (expr n).isSome then
        some (acc ++ render (fun n => (expr n).getD []) ts) else none)
  | 0, _, _, _, h => by omega
  | fuel + 1, ts, acc, hw, hf => by
    rcases tok_cases ts with ⟨cs, rfl⟩ | ⟨cs, n, rest, rfl⟩
    · have hcs : 'p' ∉ cs := (wf_chars (ts := []).1 (by simpa using hw)).1
      have hrefs : refs (cs.map Tok.ch) = [] := by
        clear hw hf hcs
        induction cs with
        | nil => rfl
        | cons c cs ih => simpa [refs] using ih
      simp only [render_chars, relationLoop, findChar_eq_none.2 hcs, hrefs]
      by_cases h : cs = []
      · subst h; simp
      · simp [h]
    · obtain ⟨hcs, hfit, ⟨r', hr'⟩, hwr⟩ := wf_chars.1 hw
      obtain ⟨c, hc, rfl⟩ : ∃ c, (c = ' ' ∨ c = ')') ∧ rest = .ch c :: r' := by
        rcases hr' with h | h
        · exact ⟨' ', .inl rfl, h⟩
        · exact ⟨')', .inr rfl, h⟩
      have hs : render pRef (cs.map Tok.ch ++ .ref n :: .ch c :: r') =
          cs ++ pRef n ++ c :: render pRef r' := by
        simp [render_append, render_chars, render]
      obtain ⟨g1, g2, -, g4, g5, g6⟩ := next_ref (rest := render pRef r') hcs hc hfit
      have hsn : cs ++ pRef n ++ c :: render pRef r' ≠ [] := by simp
      have hrefs : refs (cs.map Tok.ch) = [] := by
        clear hw hf hcs hs g1 g2 g4 g5 g6 hsn
        induction cs with
        | nil => rfl
        | cons c cs ih => simpa [refs] using ih
      have hlen : (render pRef (.ch c :: r')).length < fuel := by
        rw [hs] at hf
        simp only [List.length_append, pRef, List.length_cons, render] at hf ⊢
        omega
      rw [hs]
      simp only [relationLoop, if_neg hsn, g1, g2, g4, g5, Outcome.bind_ok]
      rcases he : expr n with _ | e
      · simp only [refs_append, hrefs, refs, List.nil_append, List.mem_cons, forall_eq_or_imp, he,
          Option.isSome_none, Bool.false_eq_true, false_and, if_false]
      · have := relationLoop_render expr fuel (.ch c :: r') (acc ++ cs ++ e) hwr hlen
        rw [show render pRef (.ch c :: r') = c :: render pRef r' from rfl] at this
        simp only [g6, this]
        simp only [refs_append, hrefs, refs, List.nil_append, List.mem_cons, forall_eq_or_imp, he,
          Option.isSome_some, true_and]
        simp [render_append, render_chars, render, he]

/-! ### Texts of expressions -/

/-- Starts with a blank or a closing parenthesis. -/
def Terminated (ts : List Tok) : Prop := ∃ r, ts = .ch ' ' :: r ∨ ts = .ch ')' :: r

theorem render_pRef_blank {ts : List Tok} {r : Str} (h : render pRef ts = ' ' :: r) :
    ∃ r', ts = .ch ' ' :: r' := by
  match ts, h with
  | .ch c :: ts, h =>
    simp only [render, List.cons.injEq] at h
    exact ⟨ts, by rw [h.1]⟩
  | .ref n :: ts, h => simp [render, pRef] at h

theorem render_pRef_nil {ts : List Tok} (h : render pRef ts = []) : ts = [] := by
  match ts, h with
  | [], _ => rfl
  | .ch c :: ts, h => simp [render] at h
  | .ref n :: ts, h => simp [render, pRef] at h

theorem blanks_no_p {b : Str} (h : Blanks b) : 'p' ∉ b := by
  intro hp
  have := h 'p' hp
  revert this; decide

/-- A text of an expression with blanks after it. -/
def Padded (t : Tree) (s : Str) : Prop := ∃ s' b, s = s' ++ b ∧ Blanks b ∧ Written t s'

theorem Padded.of_written {t : Tree} {s : Str} (h : Written t s) : Padded t s := ⟨s, [], by simp, by simp [Blanks], h⟩

theorem body_blanks {cs : List Tree} {s b : Str} (h : WrittenBody cs s) (hb : Blanks b) : WrittenBody cs (b ++ s) := by
  have happ : ∀ {b' : Str}, Blanks b' → Blanks (b ++ b') := by
    intro b' h' c hc
    rcases List.mem_append.1 hc with hc | hc
    · exact hb c hc
    · exact h' c hc
  cases h with
  | nil hb' => exact .nil (happ hb')
  | @cons b' c s cs rest hb' hw hr ht =>
    have := WrittenBody.cons (b := b ++ b') (happ hb') hw hr ht
    simpa using this

/-- A padded operand before other operands. -/
theorem body_padded {c : Tree} {cs : List Tree} {b s r : Str} (hb : Blanks b) (h : Padded c s) (hr : WrittenBody cs r)
    (hsep : (∃ a, c = .action a) → r = [] ∨ ∃ r', r = ' ' :: r') : WrittenBody (c :: cs) (b ++ s ++ r) := by
  obtain ⟨s', b', rfl, hb', hw⟩ := h
  have := WrittenBody.cons hb hw (body_blanks hr hb') (fun ha => by
    cases b' with
    | nil => simpa using hsep ha
    | cons c b' => exact .inr ⟨b' ++ r, by rw [hb' c (by simp)]; rfl⟩)
  simpa using this

mutual
/-- The text of an expression as tokens: it can be rewritten, and replacing the references by
texts of expressions gives a text of the expression with the objectives replaced. -/
theorem written_toks {t : Tree} {s : Str} : Written t s → (∀ a ∈ Verif.Algebra.objectives t, Fits a) →
    ∃ ts, render pRef ts = s ∧ refs ts = Verif.Algebra.objectives t ∧
      (∀ k, WellFormed k → (Terminated k ∨ ∃ o cs, t = .op o cs) → WellFormed (ts ++ k)) ∧
      ∀ (τ : Int → Tree) (f : Int → Str),
        (∀ a ∈ Verif.Algebra.objectives t, Padded (τ a) (f a)) →
        Padded (substTree τ t) (render f ts)
  | .action a, hfit =>
    ⟨[.ref a], by simp [render, pRef], rfl, fun k hk ht => by
      rcases ht with ht | ⟨o, cs, h⟩
      · exact ⟨hfit a (by simp [Verif.Algebra.objectives]), ht, hk⟩
      · simp at h, fun τ f h => by
      simpa [render, substTree] using h a (by simp [Verif.Algebra.objectives])⟩
  | .op (o := o) (cs := cs) hb, hfit => by
    obtain ⟨ts, h1, h2, h3, h4⟩ := writtenBody_toks hb (by
      simpa [Verif.Algebra.objectives] using hfit)
    refine ⟨[.ch (Verif.Algebra.opText o), .ch '('] ++ ts ++ [.ch ')'], ?_, ?_, ?_, ?_⟩
    · simp [render_append, render, h1]
    · simp [refs_append, refs, h2, Verif.Algebra.objectives]
    · intro k hk _
      have := h3 (.ch ')' :: k) ⟨by decide, hk⟩ ⟨k, .inr rfl⟩
      simp only [List.append_assoc, List.cons_append, List.nil_append, WellFormed]
      exact ⟨by cases o <;> decide, by decide, this⟩
    · intro τ f h
      have := h4 τ f (by simpa [Verif.Algebra.objectives] using h)
      have hw : Written (.op o (substTrees τ cs))
          (Verif.Algebra.opText o :: '(' :: (render f ts ++ [')'])) := .op this
      simpa [render_append, render, substTree] using Padded.of_written hw
/-- The same for a list of operands. -/
theorem writtenBody_toks {cs : List Tree} {s : Str} : WrittenBody cs s →
    (∀ a ∈ Verif.Algebra.objectivesL cs, Fits a) →
    ∃ ts, render pRef ts = s ∧ refs ts = Verif.Algebra.objectivesL cs ∧
      (∀ k, WellFormed k → Terminated k → WellFormed (ts ++ k)) ∧
      ∀ (τ : Int → Tree) (f : Int → Str),
        (∀ a ∈ Verif.Algebra.objectivesL cs, Padded (τ a) (f a)) →
        WrittenBody (substTrees τ cs) (render f ts)
  | .nil (b := b) hb, _ => by
    refine ⟨b.map Tok.ch, render_chars _ _, ?_, ?_, ?_⟩
    · clear hb
      induction b with
      | nil => rfl
      | cons c cs ih => simpa [refs] using ih
    · intro k hk _; exact wf_chars.2 ⟨blanks_no_p hb, hk⟩
    · intro τ f _; rw [render_chars]; exact .nil hb
  | .cons (b := b) (c := c) (s := s) (cs := cs) (rest := rest) hb hc hr hsep, hfit => by
    have hobj : Verif.Algebra.objectivesL (c :: cs) =
      Verif.Algebra.objectives c ++ Verif.Algebra.objectivesL cs := rfl
    obtain ⟨t1, a1, a2, a3, a4⟩ := written_toks hc (fun a ha => hfit a (by rw [hobj]; simp [ha]))
    obtain ⟨t2, b1, b2, b3, b4⟩ := writtenBody_toks hr (fun a ha => hfit a (by rw [hobj]; simp [ha]))
    have hbrefs : refs (b.map Tok.ch) = [] := by
      clear hb
      induction b with
      | nil => rfl
      | cons c cs ih => simpa [refs] using ih
    have hsep2 : (∃ a, c = .action a) → t2 = [] ∨ ∃ r, t2 = .ch ' ' :: r := by
      intro ha
      rcases hsep ha with h | ⟨r, h⟩
      · rw [h] at b1; exact .inl (render_pRef_nil b1)
      · rw [h] at b1; exact .inr (render_pRef_blank b1)
    refine ⟨b.map Tok.ch ++ t1 ++ t2, ?_, ?_, ?_, ?_⟩
    · simp [render_append, render_chars, a1, b1]
    · simp [refs_append, hbrefs, a2, b2, hobj]
    · intro k hk hterm
      have hk2 : WellFormed (t2 ++ k) := b3 k hk hterm
      rw [List.append_assoc, List.append_assoc]
      refine wf_chars.2 ⟨blanks_no_p hb, a3 (t2 ++ k) hk2 ?_⟩
      match c, hsep2 with
      | .action a, hsep2 =>
        rcases hsep2 ⟨a, rfl⟩ with h | ⟨r, h⟩
        · subst h; exact .inl hterm
        · subst h; exact .inl ⟨r ++ k, .inl rfl⟩
      | .op o cs', _ => exact .inr ⟨o, cs', rfl⟩
    · intro τ f h
      have w1 := a4 τ f (fun a ha => h a (by rw [hobj]; simp [ha]))
      have w2 := b4 τ f (fun a ha => h a (by rw [hobj]; simp [ha]))
      have e : render f (b.map Tok.ch ++ t1 ++ t2) = b ++ render f t1 ++ render f t2 := by
        simp [render_append, render_chars]
      rw [e]
      refine body_padded hb w1 w2 ?_
      intro ⟨x, hx⟩
      match c, hsep2, hx with
      | .action a, hsep2, _ =>
        rcases hsep2 ⟨a, rfl⟩ with h | ⟨r, h⟩
        · subst h; exact .inl rfl
        · subst h; exact .inr ⟨_, rfl⟩
      | .op o cs', _, hx => simp [substTree] at hx
end

end Verif.Assign
