import Verif.Model.QParse

/-!
The query language: how queries are put together from words and marks, and what they mean. What single words,
phrases and ranges mean in given fields is a parameter here; this file says how they combine.
-/

namespace Ferret.Spec
open Ferret.QP

/-- A word of a query text. -/
abbrev QWord := List Char

/-- The marks and words a query text is made of. `wild` is a word with wild cards. -/
inductive QTok where
  | word (w : QWord)
  | wild (w : QWord)
  | and | or | req | not
  | sym (c : Char)
  deriving DecidableEq, Repr

/-- What follows the first place of a phrase: the next word, a gap `<>`, or another word for the last place. -/
inductive QSpot where
  | next (w : QWord)
  | gap
  | alt (w : QWord)
  deriving DecidableEq, Repr

/-- The queries that are not put together from others: a word, `word~` and `word~0.5`, a word with wild cards,
a phrase (whose first place may be a gap) and the empty phrase with or without slop, and ranges, with or
without braces where there is only one bound. -/
inductive QLeaf where
  | word (w : QWord)
  | fuzzy (w : QWord) (sim : Option QWord)
  | wild (w : QWord)
  | phrase (first : Option QWord) (spots : List QSpot) (slop : Option QWord)
  | noPhrase (slop : Option QWord)
  | between (lo hi : QWord) (incLo incHi : Bool)
  | below (hi : QWord) (inc braces : Bool)
  | above (lo : QWord) (inc braces : Bool)
  deriving DecidableEq, Repr

/-- `+`, `-` or nothing before a clause. -/
inductive QSign where
  | none | req | not
  deriving DecidableEq, Repr

/-- What joins a clause to those before it: `AND`, `OR` or nothing. -/
inductive QJoin where
  | and | or | next
  deriving DecidableEq, Repr

mutual
/-- Queries: the leaves, `()`, clauses in parentheses, and queries for given fields or for all fields. -/
inductive QExp where
  | leaf (l : QLeaf)
  | nothing
  | parens (cs : QClauses)
  | within (f : QWord) (fs : List QWord) (e : QExp)
  | everywhere (e : QExp)
/-- A clause: a query with a sign and perhaps a boost. -/
inductive QClause where
  | mk (s : QSign) (e : QExp) (b : Option QWord)
/-- Clauses. -/
inductive QClauses where
  | one (c : QClause)
  | more (cs : QClauses) (j : QJoin) (c : QClause)
end

/-! ### How they are written -/

/-- A gap or a word at the start of a phrase. -/
def writtenFirst : Option QWord → List QTok
  | some w => [.word w]
  | none => [.sym '<', .sym '>']

def QSpot.written : QSpot → List QTok
  | .next w => [.word w]
  | .gap => [.sym '<', .sym '>']
  | .alt w => [.sym '|', .word w]

/-- `~` and a word, if there is one. -/
def writtenSlop : Option QWord → List QTok
  | some w => [.sym '~', .word w]
  | none => []

def QLeaf.written : QLeaf → List QTok
  | .word w => [.word w]
  | .fuzzy w sim => [.word w, .sym '~'] ++ (sim.map QTok.word).toList
  | .wild w => [.wild w]
  | .phrase first spots slop =>
    [.sym '"'] ++ writtenFirst first ++ spots.flatMap QSpot.written ++ [.sym '"'] ++ writtenSlop slop
  | .noPhrase slop => [.sym '"', .sym '"'] ++ writtenSlop slop
  | .between lo hi incLo incHi =>
    [.sym (if incLo then '[' else '{'), .word lo, .word hi, .sym (if incHi then ']' else '}')]
  | .below hi inc true => [.sym '<', .word hi, .sym (if inc then ']' else '}')]
  | .below hi true false => [.sym '<', .sym '=', .word hi]
  | .below hi false false => [.sym '<', .word hi]
  | .above lo inc true => [.sym (if inc then '[' else '{'), .word lo, .sym '>']
  | .above lo true false => [.sym '>', .sym '=', .word lo]
  | .above lo false false => [.sym '>', .word lo]

def QSign.written : QSign → List QTok
  | .none => []
  | .req => [.req]
  | .not => [.not]

def QJoin.written : QJoin → List QTok
  | .and => [.and]
  | .or => [.or]
  | .next => []

/-- `^` and a word, if there is one. -/
def writtenBoost : Option QWord → List QTok
  | some w => [.sym '^', .word w]
  | none => []

mutual
def QExp.written : QExp → List QTok
  | .leaf l => l.written
  | .nothing => [.sym '(', .sym ')']
  | .parens cs => [.sym '('] ++ cs.written ++ [.sym ')']
  | .within f fs e =>
    [.word f] ++ fs.flatMap (fun g => [.sym '|', .word g]) ++ [.sym ':'] ++ e.written
  | .everywhere e => [.sym '*', .sym ':'] ++ e.written
def QClause.written : QClause → List QTok
  | .mk s e b => s.written ++ e.written ++ writtenBoost b
def QClauses.written : QClauses → List QTok
  | .one c => c.written
  | .more cs j c => cs.written ++ j.written ++ c.written
end

/-! ### What they mean -/

/-- The settings that matter here: what a leaf means in given fields, the fields of the index, whether other
fields may be named, and whether clauses side by side are alternatives. -/
structure QLang where
  leaf : List Fld → QLeaf → Option Qry
  known : List Fld
  anyField : Bool
  orDefault : Bool

/-- The fields named, each once, without those that may not be named. -/
def QLang.fields (L : QLang) (fs : List QWord) : List Fld :=
  fs.foldl (fun acc f => if (L.anyField || L.known.contains f) && !acc.contains f then acc ++ [f] else acc) []

/-- What clauses come to: nothing, the only one, or a boolean query; a single prohibition is read as
everything but what it prohibits. -/
def boolOf : List (Occ × Qry) → Option Qry
  | [] => none
  | [(.mustNot, q)] => some (.bool [(.mustNot, q), (.must, .all)] false)
  | [(_, q)] => some q
  | cs => some (.bool cs false)

/-- A clause made a demand, unless it is a prohibition. -/
def demanded : Occ × Qry → Occ × Qry
  | (.mustNot, q) => (.mustNot, q)
  | (_, q) => (.must, q)

/-- Adding a clause joined by AND: it becomes a demand, and so does the clause before it if it is the only
one. -/
def andClause : List (Occ × Qry) → Occ × Qry → List (Occ × Qry)
  | [c0], c => [demanded c0, demanded c]
  | cs, c => cs ++ [demanded c]

/-- Adding a clause. -/
def QLang.join (L : QLang) (j : QJoin) (cs : List (Occ × Qry)) : Option (Occ × Qry) → List (Occ × Qry)
  | none => cs
  | some c =>
    match j with
    | .and => andClause cs c
    | .or => cs ++ [c]
    | .next => if L.orDefault then cs ++ [c] else andClause cs c

def QSign.occ : QSign → Occ
  | .none => .should
  | .req => .must
  | .not => .mustNot

/-- A query with a boost, if one is given. -/
def boosted : Option QWord → Qry → Qry
  | some b, q => .boost b q
  | none, q => q

mutual
/-- What a query means where given fields are in force; `none` if nothing is left of it. -/
def QExp.meant (L : QLang) (F : List Fld) : QExp → Option Qry
  | .leaf l => L.leaf F l
  | .nothing => some (.bool [] true)
  | .parens cs => boolOf (cs.meant L F)
  | .within f fs e => e.meant L (L.fields (f :: fs))
  | .everywhere e => e.meant L L.known
def QClause.meant (L : QLang) (F : List Fld) : QClause → Option (Occ × Qry)
  | .mk s e b => (e.meant L F).map (fun q => (s.occ, boosted b q))
def QClauses.meant (L : QLang) (F : List Fld) : QClauses → List (Occ × Qry)
  | .one c => (c.meant L F).toList
  | .more cs j c => L.join j (cs.meant L F) (c.meant L F)
end

/-! ### Trees that are read back -/

mutual
/-- Whether a query ends in a fuzzy word without a similarity: a word behind it is read as the similarity. -/
def QExp.bare : QExp → Bool
  | .leaf (.fuzzy _ none) => true
  | .leaf _ => false
  | .nothing => false
  | .parens _ => false
  | .within _ _ e => e.bare
  | .everywhere e => e.bare
def QClause.bare : QClause → Bool
  | .mk _ e b => b.isNone && e.bare
def QClauses.bare : QClauses → Bool
  | .one c => c.bare
  | .more _ _ c => c.bare
end

/-- Whether a query starts with a word. -/
def QExp.startsWord : QExp → Bool
  | .leaf (.word _) => true
  | .leaf (.fuzzy _ _) => true
  | .within _ _ _ => true
  | _ => false

def QClause.startsWord : QClause → Bool
  | .mk .none e _ => e.startsWord
  | _ => false

mutual
/-- No fuzzy word without a similarity stands right before a word. -/
def QExp.apart : QExp → Bool
  | .leaf _ => true
  | .nothing => true
  | .parens cs => cs.apart
  | .within _ _ e => e.apart
  | .everywhere e => e.apart
def QClause.apart : QClause → Bool
  | .mk _ e _ => e.apart
def QClauses.apart : QClauses → Bool
  | .one c => c.apart
  | .more cs j c => cs.apart && c.apart && !(cs.bare && (j == .next) && c.startsWord)
end

mutual
/-- The places a query takes up on the stack of the parser: a few for every level of nesting. -/
def QExp.room : QExp → Nat
  | .leaf _ => 6
  | .nothing => 6
  | .parens cs => cs.room + 1
  | .within _ _ e => e.room + 3
  | .everywhere e => e.room + 3
def QClause.room : QClause → Nat
  | .mk _ e _ => e.room + 1
def QClauses.room : QClauses → Nat
  | .one c => c.room
  | .more cs _ c => max cs.room (c.room + 2)
end

/-! ### Texts that are safe to parse -/

/-- A number as the parser reads one: a sign, perhaps, and one to nine digits. -/
def qNumber (w : QWord) : Prop :=
  ∃ sg ds, w = sg ++ ds ∧ (sg = [] ∨ sg = ['+'] ∨ sg = ['-']) ∧ ds ≠ [] ∧ (∀ c ∈ ds, c.isDigit) ∧ ds.length ≤ 9

/-- What a text may not hold: words of 254 characters or more, a bar behind a gap or another `>`, and a slop
that is no number. -/
structure QTame (ts : List QTok) : Prop where
  short : ∀ w, QTok.word w ∈ ts ∨ QTok.wild w ∈ ts → w.length ≤ 253
  bar : ∀ a b, ts ≠ a ++ .sym '>' :: .sym '|' :: b
  slop : ∀ a w b, ts = a ++ .sym '"' :: .sym '~' :: .word w :: b → qNumber w

/-- The bounds of every range are in order, as written and in lower case. -/
def QOrdered (inOrder : QWord → QWord → Bool) (lower : Char → Char) (ts : List QTok) : Prop :=
  ∀ a o x y b, ts = a ++ .sym o :: .word x :: .word y :: b → o = '[' ∨ o = '{' →
    inOrder x y = true ∧ inOrder (x.map lower) (y.map lower) = true

end Ferret.Spec
