import Verif.Log.Xml

/-!
# Messages in a database (C186)

`src/cpp/Utilities/UxAS_DatabaseLoggerHelper.cpp`, `UxAS_HeadLogDataDatabaseLogger.cpp`; `src/cpp/Services/MessageLoggerDataService.cpp`.

Of SQL there is one statement, the insertion of rows of texts (and `NULL` for a row id).  All other texts are taken for errors, which
some are not; nothing is claimed about those.
-/

namespace Verif.Log

open Verif

/-! ### SQL

None of this is in the repository: it is what SQLite does with the statements of `UxAS_DatabaseLoggerHelper.cpp` 134.
A column for numbers would make a number of a text that is one (`sqlite3` type affinity); here it stays the text. -/

/-- Tokens of SQL: texts in apostrophes, words, all else. -/
inductive Tok where
  | lit (s : Str)
  | word (s : Str)
  | mark (c : Char)
deriving Repr, DecidableEq

/-- Where in a text one is: outside, in a word, in a text in apostrophes, behind an apostrophe that may end it. -/
inductive Mode where
  | out
  | word (w : Str)
  | lit (w : Str)
  | quote (w : Str)
deriving Repr, DecidableEq

/-- Characters of words of SQL. -/
def isWord (c : Char) : Bool := c.isAlphanum || c == '_'

/-- A character outside of everything. -/
def start (c : Char) : Mode × List Tok :=
  if c = '\'' then (.lit [], [])
  else if c = ' ' then (.out, [])
  else if isWord c then (.word [c], [])
  else (.out, [.mark c])

/-- The next character. -/
def feed : Mode → Char → Mode × List Tok
  | .out, c => start c
  | .word w, c => if isWord c then (.word (w ++ [c]), []) else ((start c).1, .word w :: (start c).2)
  | .lit w, c => if c = '\'' then (.quote w, []) else (.lit (w ++ [c]), [])
  | .quote w, c => if c = '\'' then (.lit (w ++ ['\'']), []) else ((start c).1, .lit w :: (start c).2)

/-- The end of the text, which may not be inside apostrophes. -/
def finish : Mode → Option (List Tok)
  | .out => some []
  | .word w => some [.word w]
  | .lit _ => none
  | .quote w => some [.lit w]

/-- The tokens of a statement; an apostrophe twice stands for one in a text. -/
def lex : Mode → Str → Option (List Tok)
  | m, [] => finish m
  | m, c :: s => (lex (feed m c).1 s).map ((feed m c).2 ++ ·)

/-- A row; `none` is `NULL`. -/
abbrev Row := List (Option Str)

/-- A value of a row: a text or `NULL`. -/
def value : Tok → Option (Option Str)
  | .lit s => some (some s)
  | .word w => if w = "NULL".toList then some none else none
  | .mark _ => none

/-- The values of a row, behind its parenthesis. -/
def parseRow : List Tok → Option (Row × List Tok)
  | v :: .mark c :: l =>
      if c = ',' then
        match value v, parseRow l with
        | some x, some (r, l') => some (x :: r, l')
        | _, _ => none
      else if c = ')' then (value v).map fun x => ([x], l)
      else none
  | _ => none

/-- Rows with commas between them, to the end. -/
def parseRows : ℕ → List Tok → Option (List Row)
  | n + 1, .mark '(' :: l =>
      match parseRow l with
      | some (r, []) => some [r]
      | some (r, .mark ',' :: l') => (parseRows n l').map (r :: ·)
      | _ => none
  | _, _ => none

/-- A table: the tokens of an insertion up to the rows, whether there is a row id in front (which is `NULL`), and the number of the
other columns. -/
structure Table where
  head : Str
  id : Bool
  width : ℕ

/-- Does a row fit? -/
def fits (t : Table) (r : Row) : Bool :=
  if t.id then r.head? == some none && r.tail.length == t.width && r.tail.all Option.isSome else r.length == t.width && r.all Option.isSome

/-- What an insertion adds, `none` for an error.  Only the text up to a zero byte is looked at (`sqlite3_exec`). -/
def insertion (t : Table) (sql : Str) : Option (List Row) :=
  match lex .out t.head, lex .out (sql.takeWhile (· ≠ '\x00')) with
  | some h, some l =>
      if h.isPrefixOf l then
        match parseRows l.length (l.drop h.length) with
        | some rs => if rs.all (fits t) then some rs else none
        | none => none
      else none
  | _, _ => none

/-! ### The logger -/

/-- What happens when a database is opened (UxAS_DatabaseLoggerHelper.cpp 67-90). -/
inductive Opening where
  | ok
  /-- The table cannot be made. -/
  | noTable
  /-- There is no database. -/
  | fails
deriving Repr, DecidableEq

/-- UxAS_DatabaseLoggerHelper.h 62-78, `m_db`: there is none, one without the table, one with it. -/
inductive Conn where
  | none | bare | full
deriving Repr, DecidableEq

/-- UxAS_DatabaseLoggerHelper.h 62-78; `dbs` are the databases in the order in which they were opened, with their rows. -/
structure DbLog where
  table : Table
  location : Str
  stamp : Bool
  limit : ℕ
  dbs : List (Str × List Row) := []
  conn : Conn := .none
  opened : Bool := false
  fileCount : ℕ := 0
  count : ℕ := 1

/-- UxAS_DatabaseLoggerHelper.cpp 54-94, of a logger that is set up.  `m_isDbOpened` is set once and for all. -/
def DbLog.open (d : DbLog) (time : ℕ) (o : Opening) : DbLog × Bool :=
  let n := (d.fileCount + 1) % 2 ^ 32
  let p := fileName d.location d.stamp n time ++ ".db3".toList
  match o with
  | .ok => ({ d with fileCount := n, dbs := d.dbs ++ [(p, [])], conn := .full, opened := true }, true)
  | .noTable => ({ d with fileCount := n, conn := .bare }, false)
  | .fails => ({ d with fileCount := n }, false)

/-- UxAS_DatabaseLoggerHelper.cpp 153-182 and 96-121. -/
def DbLog.roll (d : DbLog) (time : ℕ) (o : Opening) : DbLog × Bool :=
  if d.limit < d.count then
    let r := DbLog.open { d with conn := .none } time o
    ({ r.1 with count := 1 }, r.2)
  else (d, true)

/-- UxAS_DatabaseLoggerHelper.cpp 134: the statement. -/
def statement (t : Table) (values : Str) : Str := t.head ++ '(' :: values ++ [')']

/-- UxAS_DatabaseLoggerHelper.cpp 123-151: an error of the statement is not reported. -/
def DbLog.insert (d : DbLog) (values : Str) (time : ℕ) (o : Opening) : Outcome (DbLog × Bool) :=
  let r := if d.opened then (d, true) else d.open time o
  if r.2 then
    match r.1.conn with
    | .none => .ub
    | .bare => .ok (r.1, true)
    | .full =>
        match insertion d.table (statement d.table values) with
        | none => .ok (r.1, true)
        | some rs =>
            .ok (DbLog.roll
              { r.1 with
                dbs := r.1.dbs.dropLast ++ (r.1.dbs.getLast?.map fun p => (p.1, p.2 ++ rs)).toList
                count := (r.1.count + 1) % 2 ^ 32 } time o)
  else .ok (r.1, false)

/-- MessageLoggerDataService.cpp 97-110. -/
def msgTable : Table :=
  { head := "INSERT INTO msg (id,time_ms,descriptor,groupID,entityID,serviceID,xml) VALUES ".toList, id := true, width := 6 }

/-- UxAS_HeadLogDataDatabaseLogger.cpp 48-66. -/
def logTable (threads : Bool) : Table :=
  if threads then { head := "INSERT INTO log (time_ms,threadId,severityLevel,text) VALUES ".toList, id := false, width := 4 }
  else { head := "INSERT INTO log (time_ms,severityLevel,text) VALUES ".toList, id := false, width := 3 }

/-- Texts in apostrophes, with commas in between. -/
def quotes : List Str → Str
  | [] => []
  | [a] => '\'' :: a ++ ['\'']
  | a :: l => '\'' :: a ++ '\'' :: ',' :: quotes l

/-- A message that is received: the time, its descriptor, group, entity and service, and its text. -/
structure Message where
  time : ℕ
  descriptor : Str
  group : Str
  entity : Str
  service : Str
  xml : Str
deriving Repr, DecidableEq

/-- MessageLoggerDataService.cpp 161-167: what is stored of a message. -/
def Message.fields (m : Message) : List Str := [decimal m.time, m.descriptor, m.group, m.entity, m.service, m.xml]

/-- MessageLoggerDataService.cpp 161-167. -/
def Message.values (m : Message) : Str := "NULL,".toList ++ quotes m.fields

/-- UxAS_HeadLogDataDatabaseLogger.cpp 89-92; `text` is the escaped text. -/
def Entry.fields (threads : Bool) (e : Entry) (text : Str) : List Str :=
  decimal e.time :: ((if threads then [e.thread] else []) ++ [e.sev.text, text])

/-- UxAS_HeadLogDataDatabaseLogger.cpp 89-92. -/
def Entry.values (threads : Bool) (e : Entry) (text : Str) : Str := quotes (e.fields threads text)

/-- MessageLoggerDataService.cpp 85-126: the log of messages, with the greatest limit. -/
def msgLog (location : Str) (stamp : Bool) (time : ℕ) : DbLog :=
  (DbLog.open { table := msgTable, location := location, stamp := stamp, limit := 2 ^ 32 - 1 } time .ok).1

/-- All messages that are received. -/
def DbLog.receive (d : DbLog) : List Message → Outcome DbLog
  | [] => .ok d
  | m :: l => (d.insert m.values m.time .ok).bind fun r => r.1.receive l

/-! ### Reading back -/

theorem lex_lit : ∀ (s : Str) (w r : Str), '\'' ∉ s → lex (.lit w) (s ++ r) = lex (.lit (w ++ s)) r
  | [], w, r, _ => by simp
  | c :: s, w, r, h => by
      have hc : c ≠ '\'' := fun e => h (by simp [e])
      rw [List.cons_append, lex, feed, if_neg hc, lex_lit s (w ++ [c]) r (fun hm => h (by simp [hm]))]
      simp [List.append_assoc]

/-- The tokens of texts in apostrophes. -/
def quoteToks : List Str → List Tok
  | [] => []
  | [a] => [.lit a]
  | a :: l => .lit a :: .mark ',' :: quoteToks l

theorem lex_quotes : ∀ (l : List Str), l ≠ [] → (∀ a ∈ l, '\'' ∉ a) → lex .out (quotes l ++ [')']) = some (quoteToks l ++ [.mark ')'])
  | [], h, _ => absurd rfl h
  | [a], _, h => by
      have ha := h a (by simp)
      rw [quotes, List.append_assoc, List.cons_append, lex, feed, start, if_pos rfl]
      simp only
      rw [lex_lit a [] _ ha]
      simp [lex, feed, start, finish, quoteToks, isWord, Char.isAlphanum, Char.isAlpha, Char.isUpper, Char.isLower, Char.isDigit]
  | a :: b :: l, _, h => by
      have ha := h a (by simp)
      have ih := lex_quotes (b :: l) (by simp) fun x hx => h x (by simp at hx ⊢; tauto)
      rw [quotes, List.append_assoc, List.cons_append, lex, feed, start, if_pos rfl]
      · simp only
        rw [lex_lit a [] _ ha]
        simp only [List.cons_append, List.nil_append]
        rw [lex, feed, if_pos rfl, lex, feed, if_neg (by decide)]
        have e : start ',' = (.out, [.mark ',']) := by decide
        simp only [e, ih]
        simp [quoteToks]
      · simp

theorem parse_quotes : ∀ (l : List Str), l ≠ [] → parseRow (quoteToks l ++ [.mark ')']) = some (l.map some, [])
  | [], h => absurd rfl h
  | [a], _ => by simp [quoteToks, parseRow, value]
  | a :: b :: l, _ => by
      have ih := parse_quotes (b :: l) (by simp)
      simp only [quoteToks, List.cons_append, parseRow, if_true, value, ih]
      simp

/-- The row of some values. -/
def rowOf (t : Table) (l : List Str) : Row := if t.id then none :: l.map some else l.map some

/-- Not in the code: the values of a row as they are written. -/
def valuesOf (t : Table) (l : List Str) : Str := if t.id then "NULL,".toList ++ quotes l else quotes l

/-- What is known of the two tables: the text of an insertion up to the parenthesis is read by itself. -/
structure Table.Good (t : Table) : Prop where
  width : t.width ≠ 0
  zero : '\x00' ∉ t.head
  lexes : ∃ h, lex .out t.head = some h ∧ ∀ r, lex .out (t.head ++ '(' :: r) = (lex .out r).map fun l => h ++ .mark '(' :: l

/-- Where the reading of a text ends. -/
def modeAfter : Mode → Str → Mode × List Tok
  | m, [] => (m, [])
  | m, c :: s => ((modeAfter (feed m c).1 s).1, (feed m c).2 ++ (modeAfter (feed m c).1 s).2)

theorem lex_modeAfter : ∀ (a : Str) (m : Mode) (r : Str), lex m (a ++ r) = (lex (modeAfter m a).1 r).map ((modeAfter m a).2 ++ ·)
  | [], m, r => by simp [modeAfter]
  | c :: a, m, r => by
      rw [List.cons_append, lex, lex_modeAfter a, modeAfter]
      simp [Function.comp_def, List.append_assoc]

theorem good_of {t : Table} (hw : t.width ≠ 0) (hz : '\x00' ∉ t.head) (hm : (modeAfter .out t.head).1 = .out) : t.Good := by
  refine ⟨hw, hz, (modeAfter .out t.head).2, ?_, fun r => ?_⟩
  · have := lex_modeAfter t.head .out []
    rw [List.append_nil, hm] at this
    rw [this]; simp [lex, finish]
  · rw [lex_modeAfter, hm, lex, feed]
    have e : start '(' = (.out, [.mark '(']) := by decide
    rw [e]
    simp [Function.comp_def]

theorem good_msg : msgTable.Good := good_of (by decide) (by decide) (by decide +kernel)
theorem good_log (b : Bool) : (logTable b).Good := by
  cases b
  · exact good_of (by decide) (by decide) (by decide +kernel)
  · exact good_of (by decide) (by decide) (by decide +kernel)

theorem quotes_zero : ∀ {l : List Str}, (∀ a ∈ l, '\x00' ∉ a) → '\x00' ∉ quotes l
  | [], _ => by simp [quotes]
  | [a], h => by
      have := h a (by simp)
      simp [quotes, this]
  | a :: b :: l, h => by
      have ih := quotes_zero (l := b :: l) fun x hx => h x (by simp at hx ⊢; tauto)
      have := h a (by simp)
      rw [quotes]
      · simp [this, ih]
      · simp

theorem lex_null (r : Str) : lex .out ("NULL,".toList ++ r) = (lex .out r).map fun l => .word "NULL".toList :: .mark ',' :: l := by
  rw [lex_modeAfter]
  have e : modeAfter .out "NULL,".toList = (.out, [.word "NULL".toList, .mark ',']) := by decide +kernel
  rw [e]
  rfl

theorem all_some (l : List Str) : (l.map some).all Option.isSome = true := by
  rw [List.all_eq_true]; intro x hx
  obtain ⟨a, -, rfl⟩ := List.mem_map.1 hx
  rfl

theorem takeWhile_zero : ∀ {s : Str}, '\x00' ∉ s → s.takeWhile (· ≠ '\x00') = s
  | [], _ => rfl
  | c :: s, h => by
      rw [List.takeWhile_cons_of_pos (by simp only [decide_eq_true_eq]; exact fun e => h (by simp [e])),
        takeWhile_zero fun hm => h (by simp [hm])]

/-- One row, read. -/
theorem parse_one {n : ℕ} {l : List Tok} {r : Row} (h : parseRow l = some (r, [])) : parseRows (n + 1) (.mark '(' :: l) = some [r] := by
  rw [parseRows, h]

theorem parse_some {n : ℕ} {l : List Tok} {r : Row} (h : parseRow l = some (r, [])) :
    parseRows (n + (Tok.mark '(' :: l).length) (.mark '(' :: l) = some [r] := parse_one (n := n + l.length) h

/-- Texts without apostrophes and zero bytes are stored as one row. -/
theorem insertion_clean {t : Table} (ht : t.Good) {l : List Str} (hl : l.length = t.width) (h : ∀ a ∈ l, '\'' ∉ a ∧ '\x00' ∉ a) :
    insertion t (statement t (valuesOf t l)) = some [rowOf t l] := by
  obtain ⟨hd, h1, h2⟩ := ht.lexes
  have hne : l ≠ [] := by intro e; rw [e] at hl; exact ht.width hl.symm
  have hz := quotes_zero fun a ha => (h a ha).2
  have hq := lex_quotes l hne fun a ha => (h a ha).1
  have hp := parse_quotes l hne
  unfold insertion
  have e0 : (statement t (valuesOf t l)).takeWhile (· ≠ '\x00') = t.head ++ '(' :: (valuesOf t l ++ [')']) := by
    rw [takeWhile_zero]
    · simp [statement]
    · unfold statement valuesOf
      split <;> simp [ht.zero, hz]
  rw [e0, h1, h2]
  have key : ∃ ts, lex .out (valuesOf t l ++ [')']) = some ts ∧ parseRow ts = some (rowOf t l, []) := by
    unfold valuesOf rowOf
    cases t.id with
    | false => exact ⟨_, hq, hp⟩
    | true =>
        refine ⟨_, by rw [if_pos rfl, List.append_assoc, lex_null, hq]; rfl, ?_⟩
        simp only [parseRow, if_true, value, hp]
  obtain ⟨ts, k1, k2⟩ := key
  rw [k1]
  simp only [Option.map_some]
  rw [if_pos (by rw [List.isPrefixOf_iff_prefix]; exact ⟨_, rfl⟩), List.drop_left' rfl, List.length_append, parse_some k2]
  simp only [List.all_cons, List.all_nil, Bool.and_true]
  rw [if_pos]
  unfold fits rowOf
  split <;> simp [hl]

/-! ### Only those -/

/-- The least length of a token. -/
def cost : Tok → ℕ
  | .lit s => s.length + s.count '\'' + 2
  | .word s => s.length
  | .mark _ => 1

/-- Not in the code: the characters that tokens need. -/
def costs (l : List Tok) : ℕ := (l.map cost).sum

/-- What is read of the token at hand. -/
def pending : Mode → ℕ
  | .out => 0
  | .word w => w.length
  | .lit w => w.length + w.count '\'' + 1
  | .quote w => w.length + w.count '\'' + 2

theorem costs_append (a b : List Tok) : costs (a ++ b) = costs a + costs b := by simp [costs]

theorem start_cost (c : Char) : costs (start c).2 + pending (start c).1 ≤ 1 := by
  unfold start
  split
  · simp [costs, pending]
  split
  · simp [costs, pending]
  split
  · simp [costs, pending]
  · simp [costs, pending, cost]

theorem feed_cost (m : Mode) (c : Char) : costs (feed m c).2 + pending (feed m c).1 ≤ pending m + 1 := by
  have hs := start_cost c
  cases m with
  | out => simpa [feed, pending] using hs
  | word w =>
      rw [feed]
      split
      · simp [costs, pending]
      · simp only [costs, List.map_cons, List.sum_cons, cost, pending] at hs ⊢; omega
  | lit w =>
      rw [feed]
      split
      · simp [costs, pending]
      · rename_i h
        have : (w ++ [c]).count '\'' = w.count '\'' := by simp [List.count_append, h]
        simp only [costs, pending, this]; simp; omega
  | quote w =>
      rw [feed]
      split
      · simp only [costs, pending, List.count_append]; simp; omega
      · simp only [costs, List.map_cons, List.sum_cons, cost, pending] at hs ⊢; omega

theorem lex_cost : ∀ (s : Str) (m : Mode) (ts : List Tok), lex m s = some ts → costs ts ≤ pending m + s.length
  | [], m, ts, h => by
      rw [lex] at h
      cases m <;> simp [finish] at h <;> subst h <;> simp [costs, cost, pending]
  | c :: s, m, ts, h => by
      rw [lex, Option.map_eq_some_iff] at h
      obtain ⟨ts', h', rfl⟩ := h
      have := lex_cost s _ _ h'
      have := feed_cost m c
      rw [costs_append, List.length_cons]
      omega

/-- The token of a value. -/
def valueTok : Option Str → Tok
  | none => .word "NULL".toList
  | some s => .lit s

theorem value_tok {t : Tok} {x : Option Str} (h : value t = some x) : t = valueTok x := by
  cases t with
  | lit s => simp [value] at h; subst h; rfl
  | word w =>
      rw [value] at h
      split at h
      · rename_i hw; simp at h; subst h; rw [hw]; rfl
      · simp at h
  | mark c => simp [value] at h

/-- The tokens of a row. -/
def rowToks : Row → List Tok
  | [] => []
  | [x] => [valueTok x, .mark ')']
  | x :: l => valueTok x :: .mark ',' :: rowToks l

theorem rowToks_cons (x y : Option Str) (r : Row) : rowToks (x :: y :: r) = valueTok x :: .mark ',' :: rowToks (y :: r) := by
  rw [rowToks]; simp

theorem parseRow_toks : ∀ {l : List Tok} {r : Row} {l' : List Tok}, parseRow l = some (r, l') → r ≠ [] ∧ l = rowToks r ++ l'
  | [], _, _, h => by simp [parseRow] at h
  | [_], _, _, h => by simp [parseRow] at h
  | _ :: .lit _ :: _, _, _, h => by simp [parseRow] at h
  | _ :: .word _ :: _, _, _, h => by simp [parseRow] at h
  | v :: .mark c :: l, r, l', h => by
      rw [parseRow] at h
      by_cases h1 : c = ','
      · rw [if_pos h1] at h
        cases hv : value v with
        | none => rw [hv] at h; simp at h
        | some x =>
            cases hp : parseRow l with
            | none => rw [hv, hp] at h; simp at h
            | some q =>
                obtain ⟨r', l''⟩ := q
                rw [hv, hp] at h
                simp only [Option.some.injEq, Prod.mk.injEq] at h
                obtain ⟨rfl, rfl⟩ := h
                obtain ⟨hne, rfl⟩ := parseRow_toks hp
                refine ⟨by simp, ?_⟩
                cases r' with
                | nil => exact absurd rfl hne
                | cons y r' => rw [rowToks_cons, h1, value_tok hv]; rfl
      · rw [if_neg h1] at h
        by_cases h2 : c = ')'
        · rw [if_pos h2, Option.map_eq_some_iff] at h
          obtain ⟨x, hx, e⟩ := h
          simp only [Prod.mk.injEq] at e
          obtain ⟨rfl, rfl⟩ := e
          exact ⟨by simp, by rw [h2, value_tok hx]; rfl⟩
        · rw [if_neg h2] at h; simp at h

theorem parseRows_one {n : ℕ} {l : List Tok} {r : Row} (h : parseRows n l = some [r]) : l = .mark '(' :: rowToks r := by
  cases n with
  | zero => simp [parseRows] at h
  | succ n =>
      unfold parseRows at h
      split at h
      · rename_i heq
        cases heq
        split at h
        · rename_i hp
          simp at h
          subst h
          have := (parseRow_toks hp).2
          rw [this, List.append_nil]
        · rename_i hp
          rw [Option.map_eq_some_iff] at h
          obtain ⟨rs, hr, he⟩ := h
          simp only [List.cons.injEq] at he
          rw [he.2] at hr
          exfalso
          cases n with
          | zero => simp [parseRows] at hr
          | succ n =>
              unfold parseRows at hr
              split at hr
              · split at hr
                · simp at hr
                · rw [Option.map_eq_some_iff] at hr
                  obtain ⟨rs, -, he⟩ := hr
                  simp at he
                · simp at hr
              · simp at hr
        · simp at h
      · simp at h

theorem cost_row : ∀ (l : List Str), l ≠ [] → costs (rowToks (l.map some)) = (quotes l).length + 1 + (l.map fun a => a.count '\'').sum
  | [], h => absurd rfl h
  | [a], _ => by simp [rowToks, costs, valueTok, cost, quotes]; omega
  | a :: b :: l, _ => by
      have ih := cost_row (b :: l) (by simp)
      have e : rowToks ((a :: b :: l).map some) = .lit a :: .mark ',' :: rowToks ((b :: l).map some) := by
        simp only [List.map_cons]; rw [rowToks_cons]; rfl
      have e2 : quotes (a :: b :: l) = '\'' :: a ++ '\'' :: ',' :: quotes (b :: l) := by rw [quotes]; simp
      rw [e, e2]
      have e3 : costs (.lit a :: .mark ',' :: rowToks ((b :: l).map some)) = (a.length + a.count '\'' + 2) + (1 + costs (rowToks ((b :: l).map some))) := by
        simp [costs, cost]
      have e4 : ((a :: b :: l).map fun a => a.count '\'').sum = a.count '\'' + ((b :: l).map fun a => a.count '\'').sum := rfl
      rw [e3, ih, e4]
      simp only [List.length_append, List.length_cons]
      omega

theorem sum_zero : ∀ {l : List Str}, (l.map fun a => a.count '\'').sum = 0 → ∀ a ∈ l, '\'' ∉ a
  | [], _, _, h => by simp at h
  | b :: l, h, a, ha => by
      simp only [List.map_cons, List.sum_cons] at h
      rcases List.mem_cons.1 ha with rfl | ha
      · exact List.count_eq_zero.1 (by omega)
      · exact sum_zero (by omega) a ha

theorem cost_rowOf (t : Table) {l : List Str} (h : l ≠ []) :
    costs (rowToks (rowOf t l)) = (valuesOf t l).length + 1 + (l.map fun a => a.count '\'').sum := by
  have := cost_row l h
  unfold rowOf valuesOf
  cases t.id with
  | false => exact this
  | true =>
      obtain ⟨a, l', rfl⟩ : ∃ a l', l = a :: l' := by cases l with | nil => exact absurd rfl h | cons a l' => exact ⟨a, l', rfl⟩
      simp only [if_true, List.map_cons] at this ⊢
      rw [rowToks_cons]
      have e : costs (valueTok none :: .mark ',' :: rowToks (some a :: l'.map some)) = 5 + costs (rowToks (some a :: l'.map some)) := by
        simp only [costs, List.map_cons, List.sum_cons, valueTok, cost]
        have : "NULL".toList.length = 4 := rfl
        omega
      rw [e, this, List.length_append]
      have : "NULL,".toList.length = 5 := rfl
      omega

theorem takeWhile_append_clean {a b : Str} (h : '\x00' ∉ a) : (a ++ b).takeWhile (· ≠ '\x00') = a ++ b.takeWhile (· ≠ '\x00') := by
  rw [List.takeWhile_append_of_pos]
  intro c hc
  simp only [decide_eq_true_eq]
  exact fun e => h (e ▸ hc)

theorem takeWhile_full : ∀ {s : Str}, s.length ≤ (s.takeWhile (· ≠ '\x00')).length → '\x00' ∉ s
  | [], _ => by simp
  | c :: s, h => by
      by_cases hc : c = '\x00'
      · rw [List.takeWhile_cons_of_neg (by simp [hc])] at h; simp at h
      · rw [List.takeWhile_cons_of_pos (by simp [hc])] at h
        have := takeWhile_full (s := s) (by simp only [List.length_cons] at h; omega)
        simp only [List.mem_cons, not_or]
        exact ⟨fun e => hc e.symm, this⟩

theorem quotes_mem : ∀ {l : List Str} {a : Str} {c : Char}, a ∈ l → c ∈ a → c ∈ quotes l
  | [b], a, c, h, hc => by simp only [List.mem_singleton] at h; subst h; simp [quotes, hc]
  | b :: b' :: l, a, c, h, hc => by
      have e2 : quotes (b :: b' :: l) = '\'' :: b ++ '\'' :: ',' :: quotes (b' :: l) := by rw [quotes]; simp
      rw [e2]
      rcases List.mem_cons.1 h with rfl | h
      · simp [hc]
      · have := quotes_mem h hc
        simp [this]

/-- **C186.**  Texts are stored as they are, in one row, just when none of them has an apostrophe (or a zero byte) in it. -/
theorem C186_exact {t : Table} (ht : t.Good) {l : List Str} (hl : l.length = t.width) :
    insertion t (statement t (valuesOf t l)) = some [rowOf t l] ↔ ∀ a ∈ l, '\'' ∉ a ∧ '\x00' ∉ a := by
  refine ⟨fun h => ?_, insertion_clean ht hl⟩
  have hne : l ≠ [] := by intro e; rw [e] at hl; exact ht.width hl.symm
  obtain ⟨hd, h1, h2⟩ := ht.lexes
  have e0 : (statement t (valuesOf t l)).takeWhile (· ≠ '\x00') = t.head ++ '(' :: (valuesOf t l ++ [')']).takeWhile (· ≠ '\x00') := by
    have : statement t (valuesOf t l) = (t.head ++ ['(']) ++ (valuesOf t l ++ [')']) := by simp [statement]
    rw [this, takeWhile_append_clean (by simp [ht.zero])]
    simp
  unfold insertion at h
  rw [e0, h1, h2] at h
  set v := (valuesOf t l ++ [')']).takeWhile (· ≠ '\x00') with hv
  cases hx : lex .out v with
  | none => rw [hx] at h; simp at h
  | some ts =>
      rw [hx] at h
      simp only [Option.map_some] at h
      rw [if_pos (by rw [List.isPrefixOf_iff_prefix]; exact ⟨_, rfl⟩), List.drop_left' rfl] at h
      cases hp : parseRows (hd ++ Tok.mark '(' :: ts).length (Tok.mark '(' :: ts) with
      | none => rw [hp] at h; simp at h
      | some rs =>
          rw [hp] at h
          simp only at h
          split at h
          · simp only [Option.some.injEq] at h
            subst h
            have hts := parseRows_one hp
            simp only [List.cons.injEq, true_and] at hts
            have hc := lex_cost _ _ _ hx
            rw [hts, cost_rowOf t hne] at hc
            simp only [pending, Nat.zero_add] at hc
            have hvl : v.length ≤ (valuesOf t l).length + 1 := by
              have := (List.takeWhile_prefix (l := valuesOf t l ++ [')']) (fun x : Char => decide (x ≠ '\x00'))).length_le
              rw [← hv] at this
              simpa using this
            have hfull := takeWhile_full (s := valuesOf t l ++ [')']) (by rw [← hv]; simp; omega)
            intro a ha
            refine ⟨sum_zero (by omega) a ha, fun hz => hfull ?_⟩
            have := quotes_mem ha hz
            unfold valuesOf
            split <;> simp [this]
          · simp at h

/-- What the database gets for a message. -/
def stored (m : Message) : List Row := (insertion msgTable (statement msgTable m.values)).getD []

/-- **C186.**  All messages received, in order: each is stored on its own, whatever the others are, and there is one database. -/
theorem C186_messages (location : Str) (stamp : Bool) (time : ℕ) (l : List Message) :
    ∃ d, (msgLog location stamp time).receive l = .ok d ∧
      d.dbs = [(fileName location stamp 1 time ++ ".db3".toList, l.flatMap stored)] := by
  have key : ∀ (l : List Message) (d : DbLog) (p : Str) (rows : List Row), d.table = msgTable → d.limit = 2 ^ 32 - 1 → d.conn = .full →
      d.opened = true → d.dbs = [(p, rows)] → ∃ d', d.receive l = .ok d' ∧ d'.dbs = [(p, rows ++ l.flatMap stored)] := by
    intro l
    induction l with
    | nil => intro d p rows _ _ _ _ h; exact ⟨d, rfl, by simpa using h⟩
    | cons m l ih =>
        intro d p rows ht hm hc ho hd
        rw [DbLog.receive, DbLog.insert]
        simp only [ho, if_true, hc, ht]
        cases hi : insertion msgTable (statement msgTable m.values) with
        | none =>
            simp only [Outcome.bind_ok]
            have hs : stored m = [] := by simp [stored, hi]
            obtain ⟨d', h1, h2⟩ := ih d p rows ht hm hc ho hd
            exact ⟨d', h1, by rw [h2]; simp [hs]⟩
        | some rs =>
            simp only [Outcome.bind_ok]
            have hs : stored m = rs := by simp [stored, hi]
            have hr : ¬ (2 ^ 32 - 1 : ℕ) < (d.count + 1) % 2 ^ 32 := by
              have := Nat.mod_lt (d.count + 1) (y := 2 ^ 32) (by decide)
              omega
            unfold DbLog.roll
            simp only [hm, hr, if_false]
            obtain ⟨d', h1, h2⟩ := ih
              { d with
                table := msgTable
                conn := .full
                opened := true
                limit := 2 ^ 32 - 1
                dbs := d.dbs.dropLast ++ (d.dbs.getLast?.map fun p => (p.1, p.2 ++ rs)).toList
                count := (d.count + 1) % 2 ^ 32 } p (rows ++ rs) rfl rfl rfl rfl (by simp [hd])
            refine ⟨d', h1, by rw [h2]; simp [hs]⟩
  obtain ⟨d, h1, h2⟩ := key l (msgLog location stamp time) _ [] rfl rfl rfl rfl rfl
  exact ⟨d, h1, by simpa using h2⟩

theorem decimal_clean (n : ℕ) : '\'' ∉ decimal n ∧ '\x00' ∉ decimal n :=
  ⟨fun h => absurd (decimal_isDigit h) (by decide), fun h => absurd (decimal_isDigit h) (by decide)⟩

/-- **C186.**  A message without apostrophes is one row with its fields. -/
theorem C186_row {m : Message} (h : ∀ a ∈ [m.descriptor, m.group, m.entity, m.service, m.xml], '\'' ∉ a ∧ '\x00' ∉ a) :
    stored m = [none :: m.fields.map some] := by
  have : insertion msgTable (statement msgTable m.values) = some [rowOf msgTable m.fields] := by
    refine (C186_exact good_msg (l := m.fields) rfl).2 fun a ha => ?_
    rcases List.mem_cons.1 ha with rfl | ha
    · exact decimal_clean _
    · exact h a ha
  rw [stored, this]
  rfl

/-- **C186.**  Log entries are stored with quotes and apostrophes escaped. -/
theorem C186_log (b : Bool) {e : Entry} (ht : '\'' ∉ e.thread ∧ '\x00' ∉ e.thread) (hx : '\x00' ∉ e.text) {text : Str}
    (h : Ends escapeQuotes e.text text) :
    insertion (logTable b) (statement (logTable b) (e.values b text)) = some [(e.fields b (e.text.flatMap quoted)).map some] := by
  have heq : text = e.text.flatMap quoted := by
    obtain ⟨N, hN⟩ := h
    obtain ⟨M, hM⟩ := C187_escape e.text
    have h1 := hN (max N M) (by omega)
    have h2 := hM (max N M) (by omega)
    rw [h1] at h2
    exact Option.some.inj h2
  rw [heq]
  have hq : '\x00' ∉ e.text.flatMap quoted := by
    simp only [List.mem_flatMap, not_exists, not_and]
    intro c hc
    unfold quoted
    split
    · decide
    split
    · decide
    · simp only [List.mem_singleton]; exact fun e => hx (e ▸ hc)
  have hs : '\'' ∉ e.sev.text ∧ '\x00' ∉ e.sev.text := by cases e.sev <;> decide
  have hcl := (C187_clean e.text).2
  have hw : (e.fields b (e.text.flatMap quoted)).length = (logTable b).width := by cases b <;> rfl
  have hv : valuesOf (logTable b) (e.fields b (e.text.flatMap quoted)) = e.values b (e.text.flatMap quoted) := by cases b <;> rfl
  have hr : rowOf (logTable b) (e.fields b (e.text.flatMap quoted)) = (e.fields b (e.text.flatMap quoted)).map some := by cases b <;> rfl
  rw [← hv, ← hr]
  refine (C186_exact (good_log b) hw).2 fun a ha => ?_
  unfold Entry.fields at ha
  have := decimal_clean e.time
  cases b <;> simp only [if_true, Bool.false_eq_true, if_false, List.mem_cons, List.mem_append, List.not_mem_nil, or_false, List.nil_append] at ha
  · rcases ha with rfl | rfl | rfl
    · exact this
    · exact hs
    · exact ⟨hcl, hq⟩
  · rcases ha with rfl | rfl | rfl | rfl
    · exact this
    · exact ht
    · exact hs
    · exact ⟨hcl, hq⟩

/-! ### Cases -/

/-- Not in the code: an example. -/
def exMsg (xml : Str) : Message := ⟨17, "afrl.cmasi.AirVehicleState".toList, [], "100".toList, "3".toList, xml⟩

example : stored (exMsg "<Label>a \"b\"</Label>".toList) =
    [none :: ((exMsg "<Label>a \"b\"</Label>".toList).fields.map some)] :=
  C186_row (by decide +kernel)

/-- **C186, what fails.**  A message with an apostrophe in it, as in the label of a task, is not stored, and that is not reported. -/
theorem C186_lost_violated : stored (exMsg "<Label>Bob's</Label>".toList) = [] ∧
    ∀ loc stamp t, ∃ d, (msgLog loc stamp t).insert (exMsg "<Label>Bob's</Label>".toList).values 17 .ok = .ok (d, true) ∧
      d.dbs.flatMap (·.2) = [] := by
  have h : insertion msgTable (statement msgTable (exMsg "<Label>Bob's</Label>".toList).values) = none := by decide +kernel
  refine ⟨by rw [stored, h]; rfl, fun loc stamp t => ⟨msgLog loc stamp t, ?_, rfl⟩⟩
  unfold DbLog.insert
  have e : (msgLog loc stamp t).opened = true := rfl
  have e2 : (msgLog loc stamp t).conn = .full := rfl
  have e3 : (msgLog loc stamp t).table = msgTable := rfl
  simp only [e, if_true, e2, e3, h]

/-- **C186, what fails.**  A message can write the rows of others. -/
theorem C186_forged_violated :
    stored (exMsg "a'),(NULL,'18','d','g','1','1','b".toList) =
      [none :: ((exMsg "a".toList).fields.map some),
       none :: [some "18".toList, some "d".toList, some "g".toList, some "1".toList, some "1".toList, some "b".toList]] := by
  decide +kernel

/-- A log with one row to a database. -/
def exDb : DbLog := (DbLog.open { table := logTable false, location := "log".toList, stamp := false, limit := 1 } 0 .ok).1

/-- **C186, what fails.**  When the next database cannot be opened, the insertion after that uses one that is not there. -/
theorem C186_reopen_violated : (exDb.insert (Entry.values false ⟨1, [], .info, "a".toList⟩ "a".toList) 1 .fails).bind
    (fun r => r.1.insert (Entry.values false ⟨2, [], .info, "b".toList⟩ "b".toList) 2 .ok) = .ub := by
  have h : insertion (logTable false) (statement (logTable false) (Entry.values false ⟨1, [], .info, "a".toList⟩ "a".toList)) =
      some [[some "1".toList, some " INFO:  ".toList, some "a".toList]] := by decide +kernel
  unfold DbLog.insert
  have e : exDb.opened = true := rfl
  have e2 : exDb.conn = .full := rfl
  have e3 : exDb.table = logTable false := rfl
  simp only [e, if_true, e2, e3, h, Outcome.bind_ok]
  rfl

/-- **C186, what fails.**  A message that writes another row with an id of its own, as a text, is not stored at all. -/
theorem C186_own_id_violated : stored (exMsg "a'),('x','18','d','g','1','1','b".toList) = [] := by decide +kernel

end Verif.Log
