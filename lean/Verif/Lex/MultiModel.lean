import Verif.Lex.Model
/-!
A query given to `execute_sql`: the lookahead between scanner and grammar, the list of statements, and which of
them is executed.

Simplifications:
* The grammar of one statement and what executing it does are parameters. A rule of the grammar with statements in
  it, `CREATE RULE ... DO (a; b)` (gram.y:10507), is left out: `;` separates statements everywhere.
* The tokens are read before the grammar sees any of them. In the code they are read one by one: where a text has
  an error of the scanner behind an error of the grammar, an exception is thrown in either case.
-/
namespace Verif.Lex
open Verif

/-- What the grammar sees: tokens, and the four that stand for two (parser.cpp:90-146, gram.y: `NULLS_FIRST`,
`NULLS_LAST`, `WITH_TIME`, `WITH_ORDINALITY`). -/
inductive GTok where
  | tok (t : Tok)
  | nullsFirst
  | nullsLast
  | withTime
  | withOrdinality
deriving DecidableEq

/-- The keywords in lower case, kwlist.h. -/
def kwNulls : Tok := .kw [110, 117, 108, 108, 115]
def kwFirst : Tok := .kw [102, 105, 114, 115, 116]
def kwLast : Tok := .kw [108, 97, 115, 116]
def kwWith : Tok := .kw [119, 105, 116, 104]
def kwTime : Tok := .kw [116, 105, 109, 101]
def kwOrdinality : Tok := .kw [111, 114, 100, 105, 110, 97, 108, 105, 116, 121]

/-- What the scanner has left and the token kept for the next call, gramparse.h `base_yy_extra_type`. `none` as a
token is the end. -/
structure Ahead where
  rest : List Tok
  kept : Option (Option Tok)

/-- `core_yylex`: the next token. Behind the end there is the end. -/
def core (rest : List Tok) : Option Tok × List Tok :=
  match rest with
  | [] => (none, [])
  | t :: r => (some t, r)

/-- Keep the token that was read too far, parser.cpp:105-114, 134-143. -/
def keep (cur : Tok) (next : Option Tok) (rest : List Tok) : Option GTok × Ahead := (some (.tok cur), ⟨rest, some next⟩)

/-- `base_yylex`, parser.cpp:72-153. -/
def yylex (a : Ahead) : Option GTok × Ahead :=
  let (cur, rest) := match a.kept with
    | some t => (t, a.rest)
    | none => core a.rest
  match cur with
  | none => (none, ⟨rest, none⟩)
  | some cur =>
    if cur = kwNulls then
      let (next, rest) := core rest
      if next = some kwFirst then (some .nullsFirst, ⟨rest, none⟩)
      else if next = some kwLast then (some .nullsLast, ⟨rest, none⟩)
      else keep cur next rest
    else if cur = kwWith then
      let (next, rest) := core rest
      if next = some kwTime then (some .withTime, ⟨rest, none⟩)
      else if next = some kwOrdinality then (some .withOrdinality, ⟨rest, none⟩)
      else keep cur next rest
    else (some (.tok cur), ⟨rest, none⟩)

/-- How many tokens are still to come. -/
def Ahead.left (a : Ahead) : Nat := a.rest.length + (match a.kept with | some (some _) => 1 | _ => 0)

/-- The calls of `base_yylex` up to the end, by `base_yyparse`. A call that takes nothing would go on for ever. -/
def drain (a : Ahead) : Res (List GTok) :=
  match yylex a with
  | (none, _) => .ok []
  | (some g, b) => if _h : b.left < a.left then (drain b).map' (g :: ·) else .diverges
termination_by a.left

variable {S St R : Type}

/-- `stmt` for the tokens of one statement, gram.y:1157-1285: nothing is the empty statement. -/
def stmt (parse : List GTok → Option S) (seg : List GTok) : Option (Option S) :=
  match seg with
  | [] => some none
  | _ => (parse seg).map some

/-- `lappend` of a statement that is not empty, gram.y:1141-1155, pg_std_list.cpp:7-14. -/
def addStmt (acc : List S) (s : Option S) : List S :=
  match s with
  | some s => acc ++ [s]
  | none => acc

/-- `stmtmulti`, gram.y:1141-1155. `none`: a syntax error, which throws (scan.l:1046-1067, pg_functions.cpp:36-42). -/
def stmtmulti (parse : List GTok → Option S) (acc : List S) (seg : List GTok) : List GTok → Option (List S)
  | [] => (stmt parse seg).map (addStmt acc)
  | g :: gs =>
    if g = .tok (.chr 59) then
      match stmt parse seg with
      | none => none
      | some s => stmtmulti parse (addStmt acc s) [] gs
    else stmtmulti parse acc (seg ++ [g]) gs

/-- `raw_parser`, parser.cpp:30-54. -/
def rawParser (parse : List GTok → Option S) (q : Bytes) : Res (List S) :=
  (lexSql q).bind fun ts => (drain ⟨ts, none⟩).bind fun gs =>
    match stmtmulti parse [] [] gs with
    | none => .throws
    | some l => .ok l

/-- `execute_sql`, integration/cpp/wrapper_dispatcher.cpp:291-300: the state afterwards and the answer. `run`
transforms and executes a statement. `front()` of an empty list is undefined. -/
def executeSql (parse : List GTok → Option S) (run : S → St → St × Res R) (q : Bytes) (st : St) : St × Res R :=
  match rawParser parse q with
  | .ok [] => (st, .ub)
  | .ok (s :: _) => run s st
  | .throws => (st, .throws)
  | .ub => (st, .ub)
  | .diverges => (st, .diverges)

end Verif.Lex
