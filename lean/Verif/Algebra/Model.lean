import Verif.Common

/-!
Model of the process algebra of `src/cpp/Utilities/Algebra.cpp` and
`src/cpp/Utilities/AlgebraBase.h`: parse trees, `nextActions`, the textual
parser, predecessor lists and the random shuffle of a tree.

Objective ids (`action_t`, `int64_t`, AlgebraBase.h:31) are integers.  Node
pointers are replaced by values: the tree is never mutated by `nextActions`.
-/

namespace Verif.Algebra

/-- `operatorType_t`, AlgebraBase.h:42-47.  `OP_UNDEFINED` is left out: an
`operatorNode` gets its type before it is used (Algebra.cpp:427-429) and that
type is one of the three operators. -/
inductive OpType where
  | seq
  | alt
  | par
deriving Repr, DecidableEq

/-- `parseTreeNode`, `actionNode`, `operatorNode`, AlgebraBase.h:51-110.  The
`parent` pointer is left out (it is never read). -/
inductive Tree where
  | action (a : Int)
  | op (o : OpType) (children : List Tree)
deriving Repr

mutual
/-- For the examples: equality of trees is decidable (used for evaluating examples only).
-/
def Tree.decEq : (s t : Tree) → Decidable (s = t)
  | .action a, .action b =>
    if h : a = b then isTrue (by rw [h]) else isFalse (by simpa using h)
  | .action _, .op _ _ => isFalse (by simp)
  | .op _ _, .action _ => isFalse (by simp)
  | .op o cs, .op p ds =>
    match (inferInstance : Decidable (o = p)), Tree.decEqList cs ds with
    | isTrue h, isTrue k => isTrue (by rw [h, k])
    | isFalse h, _ => isFalse (by simp [h])
    | _, isFalse k => isFalse (by simp [k])
/-- For the examples: equality of lists of trees is decidable. -/
def Tree.decEqList : (s t : List Tree) → Decidable (s = t)
  | [], [] => isTrue rfl
  | [], _ :: _ => isFalse (by simp)
  | _ :: _, [] => isFalse (by simp)
  | c :: cs, d :: ds =>
    match Tree.decEq c d, Tree.decEqList cs ds with
    | isTrue h, isTrue k => isTrue (by rw [h, k])
    | isFalse h, _ => isFalse (by simp [h])
    | _, isFalse k => isFalse (by simp [k])
end

instance : DecidableEq Tree := Tree.decEq

/-- Algebra.cpp 28, 71, 162: result of `nextActions`: the returned vector and
`encounterExecutedOut`. -/
abbrev NextRes := List Int × Bool

/-- `operatorNode::nextActions`, case `OP_SEQUENTIAL`, Algebra.cpp:178-197, given
the results of the children.  `first` says that the loop index is 0.  The code
calls a child only when the loop reaches it; the children's calls have no side
effects, so taking all results first gives the same value. -/
def seqNext (first : Bool) : List NextRes → NextRes
  | [] => ([], true)
  | r :: rs => if r.1.length > 0 then (r.1, if first then r.2 else true) else seqNext false rs

/-- `operatorNode::nextActions`, case `OP_ALTERNATIVE`, Algebra.cpp:199-223. -/
def altNext (rs : List NextRes) : NextRes :=
  match rs.find? (fun r => r.2) with
  | some r => (r.1, true)
  | none => (rs.flatMap (fun r => r.1), false)

/-- `operatorNode::nextActions`, case `OP_PARALLEL`, Algebra.cpp:225-237. -/
def parNext (rs : List NextRes) : NextRes :=
  (rs.flatMap (fun r => r.1), rs.any (fun r => r.2))

/-- Dispatch on the operator, Algebra.cpp:175-242. -/
def combine : OpType → List NextRes → NextRes
  | .seq, rs => seqNext true rs
  | .alt, rs => altNext rs
  | .par, rs => parNext rs

mutual
/-- `actionNode::nextActions` (Algebra.cpp:71-90) and
`operatorNode::nextActions` (Algebra.cpp:162-245). -/
def nextActions (executed : List Int) : Tree → NextRes
  | .action a => if a ∈ executed then ([], true) else ([a], false)
  | .op o cs => combine o (nextActionsList executed cs)
/-- The children's results, Algebra.cpp:185, 203, 230. -/
def nextActionsList (executed : List Int) : List Tree → List NextRes
  | [] => []
  | c :: cs => nextActions executed c :: nextActionsList executed cs
end

mutual
/-- `getChildrenActions`, Algebra.cpp:97-102 and 252-267. -/
def actionsOf : Tree → List Int
  | .action a => [a]
  | .op _ cs => actionsOfList cs
/-- Concatenation over the children, Algebra.cpp:255-261. -/
def actionsOfList : List Tree → List Int
  | [] => []
  | c :: cs => actionsOf c ++ actionsOfList cs
end

/-! ### The textual parser -/

/-- Operator characters, Algebra.cpp:351, 361, 371 and 438-440. -/
def opOfChar (c : Char) : Option OpType :=
  if c = '.' then some .seq else if c = '+' then some .alt
  else if c = '|' then some .par else none

/-- For Algebra.cpp 354, 364, 374, 386: position after the last occurrence of a character;
`none` is `npos` (`std::string::rfind`). -/
def rfindChar (c : Char) (s : Str) : Option Nat :=
  match findChar c s.reverse with
  | some k => some (s.length - 1 - k)
  | none => none

/-- For Algebra.cpp 354, 364, 374, 386, 454, 467, 474: `s.substr(pos, len)`. Throws
`out_of_range` for `pos > size`. `len = none` stands for a length at least the length of
the string. -/
def substr (s : Str) (pos : Nat) (len : Option Nat) : Outcome Str :=
  if pos > s.length then .throws
  else match len with
    | some n => .ok ((s.drop pos).take n)
    | none => .ok (s.drop pos)

/-- The length argument `formula.rfind(')') - i - 2`, Algebra.cpp:354, 364, 374,
386.  The subtraction is modulo 2^64: when it wraps or `rfind` gives `npos` the
result is larger than any string (strings are assumed shorter than 2^32). -/
def lenArg (s : Str) (i : Nat) : Option Nat :=
  match rfindChar ')' s with
  | some r => if i + 2 ≤ r then some (r - i - 2) else none
  | none => none

/-- What the first loop of `parseFormula` finds, Algebra.cpp:349-392: the first
operator character or `p`, with its index. -/
inductive Head where
  | oper (o : OpType) (i : Nat)
  | act (i : Nat)
  | nothing
deriving Repr, DecidableEq

/-- The scan of Algebra.cpp:349-392. -/
def scanHead : Str → Nat → Head
  | [], _ => .nothing
  | c :: cs, i =>
    match opOfChar c with
    | some o => .oper o i
    | none => if c = 'p' then .act i else scanHead cs (i + 1)

/-- For Algebra.cpp 397: `isspace` for the characters `atoll` skips. -/
def isSpaceC (c : Char) : Bool :=
  c = ' ' || c = '\t' || c = '\n' || c = '\r' || c.toNat = 11 || c.toNat = 12

/-- For Algebra.cpp 397: `atoll` before the range check: blanks, optional sign, digits. -/
def atollValue (s : Str) : Int :=
  match s.dropWhile isSpaceC with
  | [] => 0
  | c :: cs =>
    if c = '-' then -(decimalValue (cs.takeWhile Char.isDigit) : Int)
    else if c = '+' then (decimalValue (cs.takeWhile Char.isDigit) : Int)
    else (decimalValue ((c :: cs).takeWhile Char.isDigit) : Int)

/-- For Algebra.cpp 397: the range of `int64_t`. -/
def inInt64 (v : Int) : Bool := (-(2 ^ 63 : Int)) ≤ v && v < (2 ^ 63 : Int)

/-- `atoll(formula.c_str())`, Algebra.cpp:397: undefined when the value does not
fit.  An embedded NUL ends the number here as well, it is not a digit. -/
def atoll (s : Str) : Outcome Int :=
  if inInt64 (atollValue s) then .ok (atollValue s) else .ub

/-- The single-objective branch, Algebra.cpp:394-422: `none` is the null pointer
returned for an id that is not among `actions`. -/
def parseAction (known : List Int) (s : Str) : Outcome (Option Tree) :=
  (atoll s).bind fun v => .ok (if v ∈ known then some (.action v) else none)

/-- Number of characters of an operator child after its first one,
Algebra.cpp:443-454: up to and including the character where the counter is 0
again, or everything. -/
def opChildLen : Int → Str → Nat
  | _, [] => 0
  | d, c :: cs =>
    let d1 := if c = '(' then d + 1 else d
    let d2 := if c = ')' then d1 - 1 else d1
    if d2 = 0 then 1 else 1 + opChildLen d2 cs

/-- Number of characters of a `p` child after the `p`, Algebra.cpp:460-465:
up to and including the first `)` or blank, or everything. -/
def pChildLen : Str → Nat
  | [] => 0
  | c :: cs => if c = ')' || c = ' ' then 1 else 1 + pChildLen cs

/-- The loop over the body of an operator, Algebra.cpp:431-490: the substrings
handed to the recursive call, in order.  `d` is `numParanthesis`. -/
def childStrs : Int → Str → List Str
  | _, [] => []
  | d, c :: cs =>
    if (opOfChar c).isSome then
      if d = 0 then (c :: cs.take (opChildLen 0 cs)) :: childStrs d cs else childStrs d cs
    else if c = 'p' then
      if d = 0 then (c :: cs.take (pChildLen cs)) :: childStrs d cs else childStrs d cs
    else if c = '(' then childStrs (d + 1) cs
    else if c = ')' then childStrs (d - 1) cs
    else childStrs d cs

/-- Run the recursive calls in order (`operatorNodeTmp->addNode(parseFormula(..))`,
Algebra.cpp:454 and 474). -/
def runAll {α : Type} : List (Outcome α) → Outcome (List α)
  | [] => .ok []
  | x :: xs => x.bind fun a => (runAll xs).bind fun as => .ok (a :: as)

/-- Setting the parent pointers, Algebra.cpp:493-497: a null child is
dereferenced. -/
def linkChildren (cs : List (Option Tree)) : Outcome (List Tree) :=
  if cs.all Option.isSome then .ok (cs.filterMap id) else .ub

/-- `CAlgebraBase::parseFormula`, Algebra.cpp:341-505, with the branch
`STEVE_FIX` off (the macro is defined nowhere).  `none` is the null pointer.
The recursion goes to strictly shorter strings; `fuel` bounds its depth and
`parse` supplies more than the length (`parseF_fuel` in Lemmas shows that any
larger amount gives the same result).  Memory is not modelled. -/
def parseF (known : List Int) : Nat → Str → Outcome (Option Tree)
  | 0, _ => .ub
  | fuel + 1, s =>
    match scanHead s 0 with
    | .nothing => parseAction known s
    | .act i => (substr s (i + 1) (lenArg s i)).bind (parseAction known)
    | .oper o i =>
      (substr s (i + 2) (lenArg s i)).bind fun body =>
        (runAll ((childStrs 0 body).map (parseF known fuel))).bind fun cs =>
          (linkChildren cs).bind fun ts => .ok (some (.op o ts))

/-- Algebra.cpp 341: `parseFormula` on a string. -/
def parse (known : List Int) (s : Str) : Outcome (Option Tree) := parseF known (s.length + 1) s

/-! ### Predecessors -/

/-- Add a predecessor unless present, Algebra.cpp:544-552. -/
def addNew (l : List Int) (a : Int) : List Int := if a ∈ l then l else l ++ [a]

/-- `findActionIndexviaActionID`, Algebra.cpp:574-580; `none` is -1. -/
def findIndex (known : List Int) (a : Int) : Option Nat := known.findIdx? (· == a)

/-- Lines Algebra.cpp:535-559 for one action of a later child: `before` holds the
actions of all earlier children in order. -/
def addPreds (known : List Int) (before : List Int) (preds : List (List Int)) (b : Int) :
    List (List Int) :=
  match findIndex known b with
  | some i => preds.modify i (fun l => before.foldl addNew l)
  | none => preds

/-- The double loop Algebra.cpp:531-561 over the children's action lists (the
first child has no earlier actions, so including it changes nothing). -/
def seqPreds (known : List Int) (before : List Int) :
    List (List Int) → List (List Int) → List (List Int)
  | [], preds => preds
  | c :: cs, preds => seqPreds known (before ++ c) cs (c.foldl (addPreds known before) preds)

mutual
/-- `initPredsRec`, Algebra.cpp:507-572. -/
def initPreds (known : List Int) : Tree → List (List Int) → List (List Int)
  | .action _, preds => preds
  | .op o cs, preds =>
    initPredsList known cs
      (if o = .seq then seqPreds known [] (cs.map actionsOf) preds else preds)
/-- The recursive calls, Algebra.cpp:565-569. -/
def initPredsList (known : List Int) : List Tree → List (List Int) → List (List Int)
  | [], preds => preds
  | c :: cs, preds => initPredsList known cs (initPreds known c preds)
end

/-- State of a `CAlgebra` object: `actions`, `preds`, `parseTreeRoot`
(AlgebraBase.h:106-118, Algebra.h:28-36). -/
structure Alg where
  known : List Int := []
  preds : List (List Int) := []
  root : Option Tree := none
deriving Repr, DecidableEq

/-- `initAtomicObjectives`, Algebra.cpp:593-609. -/
def initAtomicObjectives (ids : List Int) : Alg × Bool :=
  if ids.length = 0 then ({}, false) else ({ known := ids }, true)

/-- `initAlgebraString`, Algebra.cpp:611-646. -/
def initAlgebraString (g : Alg) (s : Str) : Outcome (Alg × Bool) :=
  (parse g.known s).bind fun r =>
    match r with
    | none => .ok ({ g with root := none }, false)
    | some t =>
      .ok ({ g with
              root := some t
              preds := initPreds g.known t (g.preds ++ List.replicate g.known.length []) }, true)

/-- `searchNext`, Algebra.cpp:648-653: the root pointer is dereferenced. -/
def searchNext (g : Alg) (executed : List Int) : Outcome (List Int) :=
  match g.root with
  | none => .ub
  | some t => .ok (nextActions executed t).1

/-- `searchPred`, Algebra.cpp:655-668: index -1 (or beyond the vector) is
undefined. -/
def searchPred (g : Alg) (executed : List Int) (a : Int) : Outcome (List Int) :=
  match findIndex g.known a with
  | none => .ub
  | some i =>
    match g.preds[i]? with
    | none => .ub
    | some ps => .ok (ps.flatMap fun p => executed.filter fun e => p == e)

/-! ### Random shuffle -/

/-- Algebra.cpp 297, 311: one pseudo random number from `rand()`; the stream is a list,
read as zeros after its end (a run reads finitely many numbers, so every run is covered).
-/
def draw (rs : List Nat) : Nat × List Nat := (rs.headD 0, rs.tail)

/-- The selection loop Algebra.cpp:308-323.  The flags `isIndexAssigned` are
replaced by the list of the children not yet taken, in order: the
`randomIndex`-th unassigned child is its element `rand() % i`. -/
def shuffleLoop : Nat → List Tree → List Nat → List Tree × List Nat
  | 0, _, rs => ([], rs)
  | n + 1, l, rs =>
    let r := draw rs
    let k := r.1 % (n + 1)
    match l[k]? with
    | none => ([], r.2)
    | some c =>
      let rest := shuffleLoop n (l.eraseIdx k) r.2
      (c :: rest.1, rest.2)

/-- Algebra.cpp:294-327: alternatives and parallels are reordered when the random
number is at most the bound.  `bound` is `shuffleProb * (RAND_MAX + 1)` rounded
down. -/
def shuffleHere (bound : Int) (o : OpType) (cs : List Tree) (rs : List Nat) :
    List Tree × List Nat :=
  if o = .seq then (cs, rs)
  else
    let r := draw rs
    if (r.1 : Int) ≤ bound then shuffleLoop cs.length cs r.2 else (cs, r.2)

/-- `randomlyShuffleChildren`, Algebra.cpp:117-120 and 291-334.  The code first
reorders the children of a node and then descends into them; `fuel` bounds the
depth, see `shuffle`. -/
def shuffleF (bound : Int) : Nat → Tree → List Nat → Tree × List Nat
  | 0, t, rs => (t, rs)
  | _ + 1, .action a, rs => (.action a, rs)
  | fuel + 1, .op o cs, rs =>
    let h := shuffleHere bound o cs rs
    let r := h.1.foldl
      (fun (acc : List Tree × List Nat) c =>
        let x := shuffleF bound fuel c acc.2
        (acc.1 ++ [x.1], x.2)) ([], h.2)
    (.op o r.1, r.2)

mutual
/-- For the proofs: depth of a tree (termination bound of `shuffle`, not in the code). -/
def depth : Tree → Nat
  | .action _ => 1
  | .op _ cs => depthList cs + 1
/-- For the proofs: largest depth among children. -/
def depthList : List Tree → Nat
  | [] => 0
  | c :: cs => max (depth c) (depthList cs)
end

/-- `randomlyShuffleTree`, Algebra.cpp:582-585. -/
def shuffle (bound : Int) (t : Tree) (rs : List Nat) : Tree × List Nat :=
  shuffleF bound (depth t) t rs

end Verif.Algebra
