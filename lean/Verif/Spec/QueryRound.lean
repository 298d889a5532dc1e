import Verif.Spec.QueryText
import Verif.Spec.QPlaces
import Verif.Spec.QWrite

/-!
Reading the text of a query back (C87): what the queries the parser builds ask for, as queries with boosts, and the queries
whose texts are read as themselves.
-/

namespace Ferret.Spec
open Ferret.QP

/-- How numbers are read, and the numbers of queries that give none: the boost 1 and the similarity 0.5. -/
structure ReadNum (N : Type) where
  read : QWord → N
  unit : N
  half : N

/-- The query with another boost. -/
def TQ.withBoost {N : Type} (b : N) : TQ N → TQ N
  | .term f w _ => .term f w b
  | .multi f ws _ => .multi f ws b
  | .phrase f ps slop _ => .phrase f ps slop b
  | .pre f w _ => .pre f w b
  | .wild f w _ => .wild f w b
  | .fuzzy f w sim _ => .fuzzy f w sim b
  | .range f lo hi i j _ => .range f lo hi i j b
  | .all _ => .all b
  | .bool cs _ => .bool cs b
  | q => q

mutual
/-- What the parser built: boosts are 1 where none is given, places of phrases are counted from the first. -/
def askedFor {N : Type} (R : ReadNum N) : Qry → TQ N
  | .term f w => .term f w R.unit
  | .phrase f ps slop => .phrase f ((absolute 0 ps).map fun p => ((p.1 : Int), p.2)) slop R.unit
  | .multi f ws => .multi f (ws.map fun w => (w, R.unit)) R.unit
  | .fuzzy f w sim => .fuzzy f w (match sim with | none => R.half | some s => R.read s) R.unit
  | .wild f p => .wild f p R.unit
  | .pre f p => .pre f p R.unit
  | .all => .all R.unit
  | .range f lo hi i j => .range f lo hi i j R.unit
  | .bool cs _ => .bool (askedForAll R cs) R.unit
  | .boost b q => (askedFor R q).withBoost (R.read b)
/-- So for clauses. -/
def askedForAll {N : Type} (R : ReadNum N) : List (Occ × Qry) → TClauses N
  | [] => .nil
  | (o, q) :: cs => .cons o (askedFor R q) (askedForAll R cs)
end

/-! ### Queries that are read back -/

/-- A word that needs no escapes: it is not empty, starts with nothing special, has no blanks, marks, colons, backslashes or
wild cards in it, is no keyword, and fits into the buffers for words. -/
def readsPlain (keys : Bool) (w : QWord) : Prop :=
  (∃ c cs, w = c :: cs ∧ c ∉ qEscaped) ∧ (∀ c ∈ w, c ∉ qEnds ∧ c ≠ '\\' ∧ c ≠ ':' ∧ c ≠ '*' ∧ c ≠ '?') ∧ (keys = true → w ∉ qReserved) ∧ w.length ≤ 253

/-- So for patterns, which have wild cards. -/
def readsPattern (w : QWord) : Prop :=
  (∃ c cs, w = c :: cs ∧ (c ∉ qEscaped ∨ c = '*' ∨ c = '?')) ∧ (∀ c ∈ w, c ∉ qEnds ∧ c ≠ '\\' ∧ c ≠ ':') ∧ ('*' ∈ w ∨ '?' ∈ w) ∧ w.length ≤ 253

/-- A word that the analyzer leaves as it is. -/
def readsSame (cfg : Cfg) (f : Fld) (w : QWord) : Prop := readsPlain cfg.keywords w ∧ ∃ i, cfg.toks f w = [(w, i)] ∧ i ≠ 0

/-- A text that is not changed where patterns and bounds are put in lower case. -/
def staysLower (cfg : Cfg) (f : Fld) (w : QWord) : Prop := (if cfg.wildLower && cfg.tokenized f then w.map cfg.lower else w) = w

/-- A field that is read: the default field, or a word that may name a field. -/
def readsField (cfg : Cfg) (df f : Fld) : Prop := f = df ∨ (readsPlain cfg.keywords f ∧ (cfg.anyFields = true ∨ f ∈ cfg.allFields))

/-- A number that is read as itself, or need not be written. -/
def readsNumber {N : Type} (keys : Bool) (nm : Nums N) (R : ReadNum N) (omitted : N → Bool) (standard : N) (b : N) : Prop :=
  if omitted b then b = standard else readsPlain keys (nm.text b) ∧ R.read (nm.text b) = b

/-- A boost that is read as itself. -/
def readsBoost {N : Type} (cfg : Cfg) (nm : Nums N) (R : ReadNum N) (b : N) : Prop := readsNumber cfg.keywords nm R nm.one R.unit b

/-- A fuzzy query whose text ends in `~`. -/
def endsTilde {N : Type} (nm : Nums N) : TQ N → Bool
  | .fuzzy _ _ sim b => nm.half sim && nm.one b
  | _ => false

/-- Bounds that are read: there is one, two are in order as they are written and in lower case, and a bound that is missing is
not included. -/
def readsRange (cfg : Cfg) : Option QWord → Option QWord → Bool → Bool → Prop
  | some x, some y, _, _ => cfg.inOrder x y = true ∧ cfg.inOrder (x.map cfg.lower) (y.map cfg.lower) = true
  | some _, none, _, j => j = false
  | none, some _, i, _ => i = false
  | none, none, _, _ => False

mutual
/-- The queries that are read back. -/
def ReadsBack {N : Type} (cfg : Cfg) (nm : Nums N) (R : ReadNum N) (df : Fld) : TQ N → Prop
  | .term f w b => readsField cfg df f ∧ readsSame cfg f w ∧ readsBoost cfg nm R b
  | .pre f w b => readsField cfg df f ∧ w ≠ [] ∧ readsPattern (w ++ ['*']) ∧ (∀ c ∈ w, c ≠ '*' ∧ c ≠ '?') ∧ staysLower cfg f (w ++ ['*']) ∧ readsBoost cfg nm R b
  | .wild f w b =>
    readsField cfg df f ∧ readsPattern w ∧ staysLower cfg f w ∧ ¬ (∃ p, w = p ++ ['*'] ∧ ∀ c ∈ p, c ≠ '*' ∧ c ≠ '?') ∧ readsBoost cfg nm R b
  | .fuzzy f w sim b => readsField cfg df f ∧ readsSame cfg f w ∧ readsNumber cfg.keywords nm R nm.half R.half sim ∧ readsBoost cfg nm R b
  | .range f lo hi i j b =>
    readsField cfg df f ∧ (∀ w, lo = some w ∨ hi = some w → readsPlain cfg.keywords w ∧ staysLower cfg f w) ∧
    readsRange cfg lo hi i j ∧ readsBoost cfg nm R b
  | .phrase f ps slop b =>
    readsField cfg df f ∧ 2 ≤ ps.length ∧ ps.Pairwise (fun x y => x.1 < y.1) ∧ (ps.head?.map Prod.fst = some 0) ∧
    (∀ p ∈ ps, p.2 ≠ [] ∧ ∀ w ∈ p.2, readsSame cfg f w ∧ ∀ c ∈ w, c ∉ qEscaped) ∧ 0 ≤ slop ∧ slop < 1000000000 ∧ readsBoost cfg nm R b
  | .all b => staysLower cfg df ['*'] ∧ readsBoost cfg nm R b
  | .bool cs b => ReadsBackAll cfg nm R df false cs ∧ (∃ o q o' q' cs', cs = .cons o q (.cons o' q' cs')) ∧ readsBoost cfg nm R b
  | _ => False
/-- So for clauses: behind a text that ends in `~`, a clause has a sign. -/
def ReadsBackAll {N : Type} (cfg : Cfg) (nm : Nums N) (R : ReadNum N) (df : Fld) (tilde : Bool) : TClauses N → Prop
  | .nil => True
  | .cons o q cs => ReadsBack cfg nm R df q ∧ (tilde = true → o ≠ .should) ∧ ReadsBackAll cfg nm R df (endsTilde nm q) cs
end

mutual
/-- How deep boolean queries are nested. -/
def TQ.nesting {N : Type} : TQ N → Nat
  | .bool cs _ => cs.nesting + 1
  | _ => 0
/-- So for clauses. -/
def TClauses.nesting {N : Type} : TClauses N → Nat
  | .nil => 0
  | .cons _ q cs => max q.nesting cs.nesting
end

end Ferret.Spec
