import Verif.Model.Postings

/-! What it means for a phrase to occur in a document. -/

namespace Ferret.Phrase

open Ferret.Post (Posting)

/-- The documents of a term: ascending, each with at least one position, in order. -/
structure DocsOK (ps : List Posting) : Prop where
  asc : ps.Pairwise fun a b => a.doc < b.doc
  freq : ∀ p ∈ ps, p.freq = p.occ.length ∧ 0 < p.freq
  occ : ∀ p ∈ ps, p.occ.Pairwise (· ≤ ·)

end Ferret.Phrase

namespace Ferret.Spec

variable {T : Type}

/-- One position of a phrase: any of `terms`, `offset` positions after the start of the phrase. -/
structure PhrasePart (T : Type) where
  terms : List T
  offset : Int
  deriving DecidableEq, Repr

/-- The term `t` is in document `d` at position `p`. -/
def TermAt (ix : T → List Post.Posting) (t : T) (d p : Int) : Prop := ∃ x ∈ ix t, (x.doc : Int) = d ∧ p ∈ x.occ

/-- A term of the phrase position is in document `d` at position `p`. -/
def PartAt (ix : T → List Post.Posting) (x : PhrasePart T) (d p : Int) : Prop := ∃ t ∈ x.terms, TermAt ix t d p

/-- The phrase is in document `d`, starting at position `p`. -/
def PhraseAt (ix : T → List Post.Posting) (ph : List (PhrasePart T)) (d p : Int) : Prop := ∀ x ∈ ph, PartAt ix x d (p + x.offset)

/-- The starts `L` of the phrase in document `d`, each once. -/
def Starts (ix : T → List Post.Posting) (ph : List (PhrasePart T)) (d : Int) (L : List Int) : Prop := L.Nodup ∧ ∀ p, p ∈ L ↔ PhraseAt ix ph d p

/-- No term has a position twice in a document, and no two terms of one phrase position are at the same place
of a document. -/
def Distinct (ix : T → List Post.Posting) (ph : List (PhrasePart T)) : Prop :=
  (∀ x ∈ ph, ∀ t ∈ x.terms, ∀ e ∈ ix t, e.occ.Nodup) ∧
  ∀ x ∈ ph, x.terms.Pairwise fun s t => ∀ d p, ¬ (TermAt ix s d p ∧ TermAt ix t d p)

/-- The phrase positions can be moved to be within `slop` of each other: some choice of an occurrence of each,
moved back by its offset, lies in a window of length `slop`. -/
def Within (ix : T → List Post.Posting) (ph : List (PhrasePart T)) (slop d : Int) : Prop :=
  ∃ lo, ∀ x ∈ ph, ∃ p, lo ≤ p ∧ p ≤ lo + slop ∧ PartAt ix x d (p + x.offset)

end Ferret.Spec
