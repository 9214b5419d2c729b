import Verif.Algebra.Model

/-!
Specification of the process algebra, independent of `nextActions` and of the
parser: the words (allowed orders) of an expression, and the textual notation.
-/

namespace Verif.Algebra

/-- `Shuffle u v w`: `w` is an interleaving of `u` and `v`. -/
inductive Shuffle : List Int → List Int → List Int → Prop where
  | nil : Shuffle [] [] []
  | left {a u v w} : Shuffle u v w → Shuffle (a :: u) v (a :: w)
  | right {a u v w} : Shuffle u v w → Shuffle u (a :: v) (a :: w)

mutual
/-- `Word t w`: executing the objectives in the order `w` completes `t`.
Sequential is concatenation, alternative is choice, parallel is interleaving. -/
def Word : Tree → List Int → Prop
  | .action a, w => w = [a]
  | .op .seq cs, w => WordSeq cs w
  | .op .alt cs, w => WordAlt cs w
  | .op .par cs, w => WordPar cs w
/-- Concatenation of one word of each child. -/
def WordSeq : List Tree → List Int → Prop
  | [], w => w = []
  | c :: cs, w => ∃ u v, w = u ++ v ∧ Word c u ∧ WordSeq cs v
/-- A word of one child. -/
def WordAlt : List Tree → List Int → Prop
  | [], _ => False
  | c :: cs, w => Word c w ∨ WordAlt cs w
/-- An interleaving of one word of each child. -/
def WordPar : List Tree → List Int → Prop
  | [], w => w = []
  | c :: cs, w => ∃ u v, Shuffle u v w ∧ Word c u ∧ WordPar cs v
end

mutual
/-- Every operator has at least one operand. -/
def NonEmptyOps : Tree → Prop
  | .action _ => True
  | .op _ cs => cs ≠ [] ∧ NonEmptyOpsList cs
/-- Every operator in a list of trees has at least one operand. -/
def NonEmptyOpsList : List Tree → Prop
  | [] => True
  | c :: cs => NonEmptyOps c ∧ NonEmptyOpsList cs
end

/-- `Occurs a t`: objective `a` is written somewhere in `t`. -/
inductive Occurs (a : Int) : Tree → Prop where
  | action : Occurs a (.action a)
  | op {o cs c} : c ∈ cs → Occurs a c → Occurs a (.op o cs)

mutual
/-- The objectives written in an expression, from left to right. -/
def objectives : Tree → List Int
  | .action a => [a]
  | .op _ cs => objectivesL cs
/-- The objectives written in a list of expressions. -/
def objectivesL : List Tree → List Int
  | [] => []
  | c :: cs => objectives c ++ objectivesL cs
end

/-- No objective is written twice. -/
def Distinct (t : Tree) : Prop := (objectives t).Nodup

/-- After executing `ex`, a user calling `searchNext` sees `a`. -/
def Offers (g : Alg) (ex : List Int) (a : Int) : Prop := ∃ r, searchNext g ex = .ok r ∧ a ∈ r

/-- The sequences a user obtains by starting with nothing executed and
repeatedly executing one of the offered objectives. -/
inductive Run (g : Alg) : List Int → Prop where
  | start : Run g []
  | step {ex a} : Run g ex → Offers g ex a → Run g (ex ++ [a])

/-! ### Textual notation -/

/-- Decimal notation of an objective id. -/
def idText (a : Int) : Str := if a < 0 then '-' :: decimal a.natAbs else decimal a.natAbs

/-- The operator characters. -/
def opText : OpType → Char
  | .seq => '.'
  | .alt => '+'
  | .par => '|'

/-- A run of blanks. -/
def Blanks (s : Str) : Prop := ∀ c ∈ s, c = ' '

mutual
/-- `Written t s`: `s` is a way of writing `t`: `p<id>` for an objective,
`.( ... )`, `+( ... )`, `|( ... )` for operators. -/
inductive Written : Tree → Str → Prop where
  | action (a : Int) : Written (.action a) ('p' :: idText a)
  | op {o cs body} : WrittenBody cs body →
      Written (.op o cs) (opText o :: '(' :: (body ++ [')']))
/-- `WrittenBody cs s`: `s` lists the operands `cs`, with any number of blanks
before and after; an objective is followed by a blank or the end. -/
inductive WrittenBody : List Tree → Str → Prop where
  | nil {b} : Blanks b → WrittenBody [] b
  | cons {b c s cs rest} : Blanks b → Written c s → WrittenBody cs rest →
      ((∃ a, c = .action a) → rest = [] ∨ ∃ r, rest = ' ' :: r) →
      WrittenBody (c :: cs) (b ++ s ++ rest)
end

/-- `Precedes t a b`: some sequential operator of `t` has `a` in an earlier
operand than `b`. -/
inductive Precedes (a b : Int) : Tree → Prop where
  | here {l m r c d} : Occurs a c → Occurs b d →
      Precedes a b (.op .seq (l ++ c :: m ++ d :: r))
  | inside {o cs c} : c ∈ cs → Precedes a b c → Precedes a b (.op o cs)

end Verif.Algebra
