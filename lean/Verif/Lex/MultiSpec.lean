import Verif.Lex.Spec
import Verif.Lex.MultiModel
/-! The statements of a text. -/
namespace Verif.Lex

/-- The pairs of words that are one word to the grammar. -/
def pairs : List (Tok × Tok × GTok) :=
  [(kwNulls, kwFirst, .nullsFirst), (kwNulls, kwLast, .nullsLast), (kwWith, kwTime, .withTime), (kwWith, kwOrdinality, .withOrdinality)]

/-- `Words ts gs`: from left to right, these pairs of the tokens `ts` are one word in `gs`, and all others are words by
themselves. -/
inductive Words : List Tok → List GTok → Prop
  | nil : Words [] []
  | pair (a b : Tok) (g : GTok) (ts : List Tok) (gs : List GTok) (h : (a, b, g) ∈ pairs) (hr : Words ts gs) : Words (a :: b :: ts) (g :: gs)
  | one (a : Tok) (ts : List Tok) (gs : List GTok) (h : ∀ b ∈ ts.head?, ∀ g, (a, b, g) ∉ pairs) (hr : Words ts gs) :
      Words (a :: ts) (.tok a :: gs)

variable {S : Type}

/-- `Statement parse ts s`: the tokens `ts`, without `;`, are the statement `s`. -/
def Statement (parse : List GTok → Option S) (ts : List Tok) (s : S) : Prop :=
  ts ≠ [] ∧ ∃ gs, Words ts gs ∧ parse gs = some s

/-- The tokens `ts` are not nothing and not a statement. -/
def Wrong (parse : List GTok → Option S) (ts : List Tok) : Prop := ts ≠ [] ∧ ∀ s, ¬ Statement parse ts s

/-- `Statements parse segs ss`: of the parts `segs`, those that are not empty are the statements `ss`. -/
inductive Statements (parse : List GTok → Option S) : List (List Tok) → List S → Prop
  | nil : Statements parse [] []
  | empty (segs : List (List Tok)) (ss : List S) (h : Statements parse segs ss) : Statements parse ([] :: segs) ss
  | one (ts : List Tok) (s : S) (segs : List (List Tok)) (ss : List S) (hs : Statement parse ts s) (h : Statements parse segs ss) :
      Statements parse (ts :: segs) (s :: ss)

/-- The query `q` consists of the parts `segs`, with `;` between them. -/
def Parts (q : Bytes) (segs : List (List Tok)) : Prop :=
  segs ≠ [] ∧ (∀ ts ∈ segs, .chr 59 ∉ ts) ∧ lexSql q = .ok ([Tok.chr 59].intercalate segs)

/-- Executing statements one after the other, up to the first that fails; the answer is that of the last. -/
def runAll {St R : Type} (run : S → St → St × Res R) : S → List S → St → St × Res R
  | s, [], st => run s st
  | s, s' :: ss, st =>
    match run s st with
    | (st, .ok _) => runAll run s' ss st
    | r => r

end Verif.Lex
