import Verif.Model.MultiTermEnum
import Verif.Model.Postings

/-!
The enumerator of the documents, and positions, of a term over several segments, index.c 3229–3442.

Simplifications: the sub readers are segment readers, so the sub enumerators are those of
`Verif.Model.Postings` and index.c 3281–3283 is not reached; curr_tde is the index of the sub enumerator
it points at; document numbers do not overflow.
-/

namespace Ferret.MDE
open Ferret Ferret.Expand Ferret.Dict Ferret.MTE Ferret.Post

/-- MultiTermDocEnum, index.c 3229–3241. ir_cnt is the length of `state` and of `tdes`. -/
structure MTDE where
  starts : List Nat
  base : Nat
  ptr : Int
  state : List Bool
  te : MTE
  tdes : List STDE
  cur : Option Nat

/-- The loop of mtde_next_tde, index.c 3246–3248. -/
def findOn (state : List Bool) : (fuel p : Nat) → Nat
  | 0, p => p
  | fuel + 1, p => if state[p]? = some false then findOn state fuel (p + 1) else p

/-- mtde_next_tde, index.c 3243–3257. `ptr` is at least −1. -/
def nextTde (m : MTDE) : Res MTDE :=
  let p := findOn m.state m.state.length (m.ptr + 1).toNat
  if p ≥ m.state.length then .ok { m with ptr := p, cur := none }
  else Res.ofOption m.starts[p]? >>= fun b => .ok { m with ptr := p, base := b, cur := some p }

/-- stde_seek_ti or stpe_seek_ti, index.c 3275–3280. -/
def seekSub (s : STDE) (ti : TI) : Res STDE := if s.isPos then stpeSeekTi s (some ti) else seekTi s (some ti)

/-- The loop of mtde_seek_te, index.c 3271–3284, over the segments in the order in which it visits them. -/
def seekLoop : List (Nat × TI) → List Bool → List STDE → Res (List Bool × List STDE)
  | [], st, ts => .ok (st, ts)
  | (i, ti) :: l, st, ts =>
    Res.ofOption ts[i]? >>= fun s => if i < st.length then
      seekSub s ti >>= fun s' => seekLoop l (st.set i true) (ts.set i s')
    else .ub

/-- mtde_seek_te, index.c 3266–3288. `tis` are ti_indexes and tis of the term enumerator. -/
def mtdeSeekTe (m : MTDE) (tis : List (Nat × TI)) : Res MTDE :=
  seekLoop tis.reverse (m.state.map fun _ => false) m.tdes >>= fun r =>
  nextTde { m with state := r.1, tdes := r.2, base := 0, ptr := -1 }

/-- mtde_seek, index.c 3290–3302. -/
def mtdeSeek (mr : MR) (m : MTDE) (f : Int) (t : Term) : Res MTDE :=
  mteSetField mr m.te f >>= fun te => mteSkipTo mr te t >>= fun r =>
  let m := { m with te := r.1 }
  match r.2 with
  | some u => if strcmp t u = 0 then mtdeSeekTe m r.1.tis else .ok { m with state := m.state.map fun _ => false }
  | none => .ok { m with state := m.state.map fun _ => false }

/-- mtde_doc_num and mtde_freq, index.c 3304–3314. -/
def mtdeDoc (m : MTDE) : Res (Int × Int) :=
  match m.cur with
  | none => .raise .state
  | some i => Res.ofOption m.tdes[i]? >>= fun s => docFreqOf s >>= fun d => .ok (m.base + d.1, d.2)

/-- mtde_next, index.c 3316–3328. -/
def mtdeNext : (fuel : Nat) → MTDE → Res (MTDE × Bool)
  | 0, _ => .ub
  | fuel + 1, m =>
    (match m.cur with
     | none => .ok (m, false)
     | some i => Res.ofOption m.tdes[i]? >>= fun s => Post.next s >>= fun r => .ok ({ m with tdes := m.tdes.set i r.1 }, r.2)) >>= fun r =>
    if r.2 then .ok (r.1, true)
    else nextTde r.1 >>= fun m => match m.cur with
      | none => .ok (m, false)
      | some _ => mtdeNext fuel m

/-- mtde_read, index.c 3330–3354: `want` documents are still wanted. -/
def mtdeRead : (fuel want : Nat) → MTDE → Res (MTDE × List (Int × Int))
  | 0, _, _ => .ub
  | fuel + 1, want, m =>
    match m.cur with
    | none => .ok (m, [])
    | some i => Res.ofOption m.tdes[i]? >>= fun s => Post.read s want >>= fun r =>
      let m := { m with tdes := m.tdes.set i r.1 }
      if r.2.length = 0 then nextTde m >>= fun m => match m.cur with
        | none => .ok (m, [])
        | some _ => mtdeRead fuel want m
      else
        let docs : List (Int × Int) := r.2.map fun d => (d.1 + (m.base : Int), d.2)
        if r.2.length = want then .ok (m, docs)
        else mtdeRead fuel (want - r.2.length) m >>= fun x => .ok (x.1, docs ++ x.2)

/-- mtde_skip_to, index.c 3356–3369. -/
def mtdeSkipTo (target : Int) : (fuel : Nat) → MTDE → Res (MTDE × Bool)
  | 0, _ => .ub
  | fuel + 1, m =>
    match m.cur with
    | none => .ok (m, false)
    | some i => Res.ofOption m.starts[(m.ptr + 1).toNat]? >>= fun e =>
      (if target < e then
        Res.ofOption m.tdes[i]? >>= fun s => Post.skipTo s (target - m.base) >>= fun r => .ok ({ m with tdes := m.tdes.set i r.1 }, r.2)
       else .ok (m, false)) >>= fun r =>
      if r.2 then .ok (r.1, true) else nextTde r.1 >>= fun m => mtdeSkipTo target fuel m

/-- mtpe_next_position, index.c 3426–3430. -/
def mtdePosition (m : MTDE) : Res (MTDE × Int) :=
  match m.cur with
  | none => .raise .state
  | some i => Res.ofOption m.tdes[i]? >>= fun s => nextPosition s >>= fun r => .ok ({ m with tdes := m.tdes.set i r.1 }, r.2)

/-- mtxe_new, mtde_new and mtpe_new, index.c 3387–3442; `tdes` are the enumerators of the sub readers. -/
def mtdeNew (mr : MR) (starts : List Nat) (tdes : List STDE) : Res MTDE :=
  mteNew mr 0 none >>= fun te => .ok ⟨starts, 0, 0, mr.subs.map fun _ => false, te, tdes, none⟩

end Ferret.MDE
