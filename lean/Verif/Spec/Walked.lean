import Verif.Model.Scorer

/-! Using a scorer. -/

namespace Ferret.Spec
open Ferret.Scorer

/-- `t` is the scorer `s` after some calls: any number of `next` and `skip_to`, all successful, each jump past the
current document, scores asked for in between. The number is the current document, -1 before the first. -/
inductive Walked {σ S : Type} (o : Ops σ S) (s : σ) : Int → σ → Prop
  | start : Walked o s (-1) s
  | next {lo t u} : Walked o s lo t → o.next t = .ok (true, u) → Walked o s (o.doc u) u
  | skip {lo t u n} : Walked o s lo t → lo < n → o.skipTo t n = .ok (true, u) → Walked o s (o.doc u) u
  | score {lo t x c u} : Walked o s lo t → o.score t = .ok (x, c, u) → Walked o s lo u

end Ferret.Spec
