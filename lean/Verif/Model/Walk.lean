import Verif.Model.BoolQuery
import Verif.Spec.Walk

/-! Sequences of calls on a scorer, and the unscored scan of a multi-searcher. -/

namespace Ferret.Scorer
open Ferret.Spec (Move)

variable {σ S : Type}

/-- One call through the function pointers of a scorer (c/include/search.h, struct Scorer). -/
def callMove (o : Ops σ S) (s : σ) : Move → Res (Bool × σ)
  | .next => o.next s
  | .skip n => o.skipTo s n

/-- A user's sequence of moves, asking for document and score after every successful one and
going on after an unsuccessful one. -/
def runAll (o : Ops σ S) : σ → List Move → Res (List (Option (Int × S)))
  | _, [] => .ok []
  | s, m :: ms =>
    callMove o s m >>= fun r =>
    if r.1 then
      o.score r.2 >>= fun x => runAll o x.2.2 ms >>= fun l => .ok (some (o.doc r.2, x.1) :: l)
    else runAll o r.2 ms >>= fun l => .ok (none :: l)

/-- The same, stopping at the first unsuccessful move; a document is scored when its flag is
set (`none` otherwise). -/
def runStop (o : Ops σ S) : σ → List (Move × Bool) → Res (List (Option (Int × Option S)))
  | _, [] => .ok []
  | s, m :: ms =>
    callMove o s m.1 >>= fun r =>
    if r.1 then
      if m.2 then
        o.score r.2 >>= fun x => runStop o x.2.2 ms >>= fun l => .ok (some (o.doc r.2, some x.1) :: l)
      else runStop o r.2 ms >>= fun l => .ok (some (o.doc r.2, none) :: l)
    else .ok [none]

/-- A sub-searcher of a multi-searcher: its `max_doc` and its `search_unscored_w` for the
weight. -/
structure USub where
  size : Nat
  run : Nat → Int → Res (List Int)

/-- `msea_search_unscored_w`, c/src/search.c:1593-1626; `start` is `starts[i]` (the sum of the
previous sizes, `msea_new`), `limit` what is left of it. -/
def mseaUnscored : List USub → Int → Nat → Int → Res (List Int)
  | [], _, _, _ => .ok []
  | s :: ss, start, limit, offset =>
    if 0 < limit then
      if offset < start + s.size then
        s.run limit (if offset > start then offset - start else 0) >>= fun l =>
        mseaUnscored ss (start + s.size) (limit - l.length) offset >>= fun r =>
        .ok (l.map (· + start) ++ r)
      else mseaUnscored ss (start + s.size) limit offset
    else .ok []

end Ferret.Scorer
