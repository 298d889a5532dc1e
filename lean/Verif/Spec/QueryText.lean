import Verif.Model.QParse

/-!
The text of a query (C86): what `to_s` gives for a query with respect to a default field. Texts are lists of characters.
-/

namespace Ferret.Spec

open Ferret.QP (Fld Occ)

/-- A number as it is written: the digits before the point, with a sign, those behind it, and the exponent. -/
structure Dec where
  whole : List Char
  frac : List Char
  exp : List Char
  deriving DecidableEq

/-- All of it. -/
def Dec.text (d : Dec) : List Char := d.whole ++ '.' :: d.frac ++ d.exp

/-- Digits without the zeros at their end, but one if there is nothing else. -/
def noTail (ds : List Char) : List Char := if ds.all (· = '0') then ['0'] else (ds.reverse.dropWhile (· = '0')).reverse

/-- It without the zeros at the end of its digits. -/
def Dec.short (d : Dec) : List Char := d.whole ++ '.' :: noTail d.frac ++ d.exp

/-- Floating point numbers, as far as texts know them: the numbers 1 and 0.5, those that are not infinite and are numbers,
and what `printf` writes with seven digits (`%#.7g`), and with an exponent (`%#.6e`). -/
structure Nums (N : Type) where
  one : N → Bool
  half : N → Bool
  finite : N → Bool
  g : N → Dec
  e : N → Dec

/-- What `printf` gives. -/
structure Nums.Ok {N : Type} (nm : Nums N) : Prop where
  digits : ∀ n, nm.finite n = true → ∀ d, d = nm.g n ∨ d = nm.e n →
    (∀ c ∈ d.frac, c.isDigit = true) ∧ (∀ c ∈ d.whole, c ≠ 'e') ∧ (d.exp = [] ∨ ∃ x, d.exp = 'e' :: x) ∧ d.text.length ≤ 14
  frac : ∀ n, nm.finite n = true → (nm.e n).frac ≠ []

/-- How a number is written: with an exponent if there would be no digit behind the point. -/
def Nums.text {N : Type} (nm : Nums N) (n : N) : List Char := if (nm.g n).frac = [] then (nm.e n).short else (nm.g n).short

/-- The digits of a natural number below 10 ^ 20. -/
def digitsGo : Nat → Nat → List Char → List Char
  | 0, _, acc => acc
  | k + 1, n, acc => if n < 10 then Char.ofNat (48 + n) :: acc else digitsGo k (n / 10) (Char.ofNat (48 + n % 10) :: acc)

/-- An integer as it is written. -/
def intText (i : Int) : List Char := (if i < 0 then ['-'] else []) ++ digitsGo 20 i.natAbs []

/-- What is formatted: a text that may be missing (NULL), a number, an integer. -/
inductive FArg (N : Type) where
  | str (s : Option (List Char))
  | dbl (n : N)
  | int (i : Int)

/-- The first argument, if it is a text. -/
def nextStr {N : Type} : List (FArg N) → Option (Option (List Char) × List (FArg N))
  | .str s :: args => some (s, args)
  | _ => none

/-- The first argument, if it is a number. -/
def nextDbl {N : Type} : List (FArg N) → Option (N × List (FArg N))
  | .dbl n :: args => some (n, args)
  | _ => none

/-- The first argument, if it is an integer. -/
def nextInt {N : Type} : List (FArg N) → Option (Int × List (FArg N))
  | .int i :: args => some (i, args)
  | _ => none

/-- A format with its arguments written out: `%s`, `%f` and `%d` take one argument each; another character behind `%` stands
for itself. -/
def formatted {N : Type} (nm : Nums N) : List Char → List (FArg N) → Option (List Char)
  | [], _ => some []
  | [c], _ => if c = '%' then none else some [c]
  | c :: d :: p, args =>
    if c = '%' then
      if d = 's' then (nextStr args).bind fun x => (formatted nm p x.2).map (x.1.getD "(null)".toList ++ ·)
      else if d = 'f' then (nextDbl args).bind fun x => (formatted nm p x.2).map ((if nm.finite x.1 then nm.text x.1 else []) ++ ·)
      else if d = 'd' then (nextInt args).bind fun x => (formatted nm p x.2).map (intText x.1 ++ ·)
      else (formatted nm p args).map (d :: ·)
    else (formatted nm (d :: p) args).map (c :: ·)

mutual
/-- Queries, with boosts. The words of a query for any of several words are in the order in which its queue gives them. -/
inductive TQ (N : Type) where
  | term (f : Fld) (w : List Char) (b : N)
  | multi (f : Fld) (ws : List (List Char × N)) (b : N)
  | phrase (f : Fld) (ps : List (Int × List (List Char))) (slop : Int) (b : N)
  | pre (f : Fld) (w : List Char) (b : N)
  | wild (f : Fld) (w : List Char) (b : N)
  | fuzzy (f : Fld) (w : List Char) (sim b : N)
  | range (f : Fld) (lo hi : Option (List Char)) (incLo incHi : Bool) (b : N)
  | all (b : N)
  | bool (cs : TClauses N) (b : N)
  | const (flt : TFilter N) (b : N)
  | filtered (q : TQ N) (flt : TFilter N) (b : N)
  | spanTerm (f : Fld) (w : List Char)
  | spanMulti (f : Fld) (ws : List (List Char))
  | spanFirst (q : TQ N) (last : Int)
  | spanOr (cs : TList N)
  | spanNear (cs : TList N)
  | spanNot (inc exc : TQ N)
  | spanPre (f : Fld) (w : List Char) (b : N)
/-- The clauses of a boolean query. -/
inductive TClauses (N : Type) where
  | nil
  | cons (o : Occ) (q : TQ N) (rest : TClauses N)
/-- The clauses of a span query. -/
inductive TList (N : Type) where
  | nil
  | cons (q : TQ N) (rest : TList N)
/-- Filters. -/
inductive TFilter (N : Type) where
  | named (name : List Char)
  | range (f : Fld) (lo hi : Option (List Char)) (incLo incHi : Bool)
  | typed (f : Fld) (lo hi : Option (List Char)) (incLo incHi : Bool)
  | query (q : TQ N)
end

/-- The field, unless it is the default field. -/
def fieldText (df : Option Fld) (f : Fld) : List Char := if df = some f then [] else f ++ [':']

/-- The boost, unless it is 1. -/
def boostText {N : Type} (nm : Nums N) (b : N) : List Char := if nm.one b then [] else '^' :: nm.text b

/-- Texts with a text between them. -/
def joinedBy (sep : List Char) : List (List Char) → List Char
  | [] => []
  | [s] => s
  | s :: ss => s ++ sep ++ joinedBy sep ss

/-- The bounds of a range. -/
def rangeText (lo hi : Option (List Char)) (incLo incHi : Bool) : List Char :=
  match lo, hi with
  | some l, some h => (if incLo then '[' else '{') :: l ++ ' ' :: h ++ [if incHi then ']' else '}']
  | some l, none => (if incLo then '[' else '{') :: l ++ ['>']
  | none, some h => '<' :: h ++ [if incHi then ']' else '}']
  | none, none => ['<', '>']

/-- The places of a phrase behind a place at `last`: a blank and `<>` for every place between, or `&` if it is the same
place. -/
def placesText (last : Int) : List (Int × List (List Char)) → List Char
  | [] => []
  | (p, ws) :: ps =>
    (if p = last then ['&'] else ' ' :: (List.replicate (p - last - 1).toNat "<> ".toList).flatten) ++ joinedBy ['|'] ws ++ placesText p ps

/-- A phrase; `ps` are its places in order. -/
def phraseText (ps : List (Int × List (List Char))) (slop : Int) : List Char :=
  (match ps with
    | [] => "\"\"".toList
    | (p, ws) :: ps => '"' :: joinedBy ['|'] ws ++ placesText p ps ++ ['"']) ++
  if ps = [] ∨ slop = 0 then [] else '~' :: intText slop

/-- The sign of a clause. -/
def signText : Occ → List Char
  | .should => []
  | .must => ['+']
  | .mustNot => ['-']

/-- A boolean query. -/
def TQ.isBool {N : Type} : TQ N → Bool
  | .bool _ _ => true
  | _ => false

/-- A query with its boost in parentheses. -/
def inParens {N : Type} (nm : Nums N) (s : List Char) (b : N) : List Char := if nm.one b then s else '(' :: s ++ ")^".toList ++ nm.text b

/-- The letters of a text (a definition of its own, so that proofs about the functions below do not spell texts out). -/
@[irreducible] def letters (s : String) : List Char := s.toList

mutual
/-- The text of a query. `order` puts the places of a phrase in order. -/
def textOf {N : Type} (nm : Nums N) (order : List (Int × List (List Char)) → List (Int × List (List Char))) (df : Option Fld) : TQ N → List Char
  | .term f w b => fieldText df f ++ w ++ boostText nm b
  | .multi f ws b => fieldText df f ++ '"' :: joinedBy ['|'] (ws.map fun x => x.1 ++ boostText nm x.2) ++ '"' :: boostText nm b
  | .phrase f ps slop b => fieldText df f ++ phraseText (order ps) slop ++ if ps = [] then [] else boostText nm b
  | .pre f w b => fieldText df f ++ w ++ '*' :: boostText nm b
  | .wild f w b => fieldText df f ++ w ++ boostText nm b
  | .fuzzy f w sim b => fieldText df f ++ w ++ '~' :: (if nm.half sim then [] else nm.text sim) ++ boostText nm b
  | .range f lo hi i j b => fieldText df f ++ rangeText lo hi i j ++ boostText nm b
  | .all b => '*' :: boostText nm b
  | .bool cs b => inParens nm (joinedBy [' '] (clausesText nm order df cs)) b
  | .const flt b => letters "ConstantScore(" ++ filterText nm order flt ++ ')' :: boostText nm b
  | .filtered q flt b =>
    letters "FilteredQuery(query:" ++ textOf nm order df q ++ letters ", filter:" ++ filterText nm order flt ++ ')' :: boostText nm b
  | .spanTerm f w => letters "span_terms(" ++ fieldText df f ++ w ++ [')']
  | .spanMulti f ws => letters "span_terms(" ++ fieldText df f ++ '[' :: joinedBy [','] ws ++ letters "])"
  | .spanFirst q last => letters "span_first(" ++ textOf nm order df q ++ letters ", " ++ intText last ++ [')']
  | .spanOr cs => letters "span_or[" ++ joinedBy [','] (listText nm order df cs) ++ [']']
  | .spanNear cs => letters "span_near[" ++ joinedBy [','] (listText nm order df cs) ++ [']']
  | .spanNot inc exc => letters "span_not(inc:<" ++ textOf nm order df inc ++ letters ">, exc:<" ++ textOf nm order df exc ++ letters ">)"
  | .spanPre f w b => fieldText df f ++ w ++ '*' :: boostText nm b
/-- The texts of clauses; boolean queries in parentheses. -/
def clausesText {N : Type} (nm : Nums N) (order : List (Int × List (List Char)) → List (Int × List (List Char))) (df : Option Fld) : TClauses N → List (List Char)
  | .nil => []
  | .cons o q cs =>
    (signText o ++ if q.isBool then '(' :: textOf nm order df q ++ [')'] else textOf nm order df q) :: clausesText nm order df cs
/-- The texts of the clauses of a span query. -/
def listText {N : Type} (nm : Nums N) (order : List (Int × List (List Char)) → List (Int × List (List Char))) (df : Option Fld) : TList N → List (List Char)
  | .nil => []
  | .cons q cs => textOf nm order df q :: listText nm order df cs
/-- The text of a filter. -/
def filterText {N : Type} (nm : Nums N) (order : List (Int × List (List Char)) → List (Int × List (List Char))) : TFilter N → List Char
  | .named n => n
  | .range f lo hi i j => letters "RangeFilter< " ++ f ++ ':' :: rangeText lo hi i j ++ letters " >"
  | .typed f lo hi i j => letters "TypedRangeFilter< " ++ f ++ ':' :: rangeText lo hi i j ++ letters " >"
  | .query q => letters "QueryFilter< " ++ textOf nm order none q ++ letters " >"
end

/-- `qsort` sorts the places. -/
def SortsPlaces (qs : List (Int × List (List Char)) → List (Int × List (List Char))) : Prop :=
  ∀ l, List.Perm (qs l) l ∧ (qs l).Pairwise (fun a b => a.1 ≤ b.1)

/-- The number of clauses. -/
def TList.length {N : Type} : TList N → Nat
  | .nil => 0
  | .cons _ cs => cs.length + 1

mutual
/-- What a query needs: boosts are numbers, the places of phrases have words, and no query for spans near each other has more
than 39 clauses. -/
def Showable {N : Type} (nm : Nums N) : TQ N → Prop
  | .term _ _ b => nm.finite b = true
  | .multi _ ws b => (∀ y ∈ ws, nm.finite y.2 = true) ∧ nm.finite b = true
  | .phrase _ ps _ b => (∀ y ∈ ps, y.2 ≠ []) ∧ nm.finite b = true
  | .pre _ _ b => nm.finite b = true
  | .wild _ _ b => nm.finite b = true
  | .fuzzy _ _ sim b => nm.finite sim = true ∧ nm.finite b = true
  | .range _ _ _ _ _ b => nm.finite b = true
  | .all b => nm.finite b = true
  | .bool cs b => ShowableAll nm cs ∧ nm.finite b = true
  | .const flt b => ShowableFilter nm flt ∧ nm.finite b = true
  | .filtered q flt b => Showable nm q ∧ ShowableFilter nm flt ∧ nm.finite b = true
  | .spanTerm _ _ => True
  | .spanMulti _ _ => True
  | .spanFirst q _ => Showable nm q
  | .spanOr cs => ShowableList nm cs
  | .spanNear cs => ShowableList nm cs ∧ cs.length ≤ 39
  | .spanNot inc exc => Showable nm inc ∧ Showable nm exc
  | .spanPre _ _ b => nm.finite b = true
/-- All clauses. -/
def ShowableAll {N : Type} (nm : Nums N) : TClauses N → Prop
  | .nil => True
  | .cons _ q cs => Showable nm q ∧ ShowableAll nm cs
/-- All clauses of a span query. -/
def ShowableList {N : Type} (nm : Nums N) : TList N → Prop
  | .nil => True
  | .cons q cs => Showable nm q ∧ ShowableList nm cs
/-- The query of a filter. -/
def ShowableFilter {N : Type} (nm : Nums N) : TFilter N → Prop
  | .query q => Showable nm q
  | _ => True
end

end Ferret.Spec
