import Verif.Model.BitVector

/-!
Constant-score queries over a query filter: c/src/q_const_score.c 26–56 (cssc_next, cssc_skip_to, cssc_new) and
c/src/filter.c 24–38, 105–120 (filt_get_bv, qfilt_get_bv_i).

The filter's cache is keyed by the reader; the bit vector in it is shared, so a scorer is the key it was made
with. What the filter's query matches in a reader is given as the list of documents its scorer goes through.
Caches are not dropped while the reader is open (co_create, hash.c, destroys an entry only with the filter or the
reader).
-/

namespace Ferret.ConstScore
open Ferret Ferret.BitVector

/-- A reader as the filter sees it: `max_doc`, and the documents the filter's query matches. -/
structure Reader where
  maxDoc : Nat
  docs : List Nat
  deriving DecidableEq

/-- The loop of qfilt_get_bv_i, filter.c 112–114. -/
def setAll : BV → List Nat → Res BV
  | bv, [] => .ok bv
  | bv, d :: ds => BitVector.set bv (d : Int) >>= fun bv => setAll bv ds

/-- qfilt_get_bv_i, filter.c 105–120. -/
def qfiltGetBv (r : Reader) : Res BV := setAll (newCapa r.maxDoc) r.docs

/-- `filt->cache`: reader to bit vector. -/
abbrev Cache := List (Nat × BV)

/-- `h_get` on the cache. -/
def lookup (c : Cache) (k : Nat) : Option BV := (c.find? (fun p => p.1 == k)).map (·.2)

/-- What the shared bit vector of a reader becomes. -/
def update (c : Cache) (k : Nat) (bv : BV) : Cache := (k, bv) :: c.filter (fun p => !(p.1 == k))

/-- filt_get_bv, filter.c 24–38, for the reader `k`. -/
def filtGetBv (env : Nat → Reader) (c : Cache) (k : Nat) : Res Cache :=
  match lookup c k with
  | some _ => .ok c
  | none => qfiltGetBv (env k) >>= fun bv => .ok (update c k bv)

/-- cssc_next, q_const_score.c 26–29: the document, or -1. -/
def csscNext (c : Cache) (k : Nat) : Res (Int × Cache) :=
  Res.ofOption (lookup c k) >>= fun bv =>
  scanNext bv >>= fun r => .ok (r.1, update c k r.2)

/-- cssc_skip_to, q_const_score.c 31–34. -/
def csscSkipTo (c : Cache) (k : Nat) (doc : Int) : Res (Int × Cache) :=
  Res.ofOption (lookup c k) >>= fun bv =>
  scanNextFrom bv doc >>= fun r => .ok (r.1, update c k r.2)

/-- `while (scorer->next(scorer))`, search.c 1031 and 1147: at most `n` documents (the caller gives enough). -/
def collect : Nat → Cache → Nat → Res (List Int × Cache)
  | 0, _, _ => .ub
  | n + 1, c, k =>
    csscNext c k >>= fun r =>
    if r.1 ≥ 0 then collect n r.2 k >>= fun q => .ok (r.1 :: q.1, q.2)
    else .ok ([], r.2)

/-- A search with the query over reader `k`: cssc_new, q_const_score.c 42–56, and all its documents. -/
def search (env : Nat → Reader) (c : Cache) (k : Nat) : Res (List Int × Cache) :=
  filtGetBv env c k >>= fun c => collect ((env k).maxDoc + 1) c k

/-- Searches one after the other. -/
def searches (env : Nat → Reader) : Cache → List Nat → Res (List (List Int) × Cache)
  | c, [] => .ok ([], c)
  | c, k :: ks =>
    search env c k >>= fun r =>
    searches env r.2 ks >>= fun q => .ok (r.1 :: q.1, q.2)

end Ferret.ConstScore
