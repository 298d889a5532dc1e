import Verif.Lemmas.NormsRun

/-!
C93: the norms that a program sets are the norms that are read, by itself at once and by others after a commit; all other norms stay as they are.

The code departs from the English property: document numbers are not checked; a MultiReader of several indexes whose fields have other numbers forgets the wrong array and keeps giving
the old norms; reading into memory leaves what was there for readers without the field; setting a norm frees the array that a running search reads; and span queries read norms
that are not there.
-/

namespace Ferret.Props
open Ferret Ferret.Spec Ferret.Sis Ferret.Dlr Ferret.Norms

/-- The documents of the segments before segment `i`. -/
def docsBefore (segs : List SI) (i : Nat) : Nat := ((segs.take i).map fun si => si.docCnt.toNat).sum

/-- The norms of an index on disk. A field with a norm generation has a file with a byte for every document, in the compound file of the segment if the generation is 0. -/
structure NormIndex (fields : List Bool) (d : Norms.Disk) (st : NState) (k : Nat) : Prop where
  names : (d.segs.map SI.name).Nodup
  max : st.max = (d.segs.map fun si => si.docCnt.toNat).sum
  short : ∀ si ∈ d.segs, si.name.length ≤ 60 ∧ si.normGens.length ≤ 2 ^ 31
  indexed : ∀ si ∈ d.segs, ∀ (f : Nat) (g : Int), si.normGens[f]? = some g → 0 ≤ g → fields[f]? = some true ∧ g + k < 2 ^ 31
  has : ∀ (i : Nat) (si : SI), d.segs[i]? = some si → ∀ (f o : Nat), o < si.docCnt.toNat → (st.has (docsBefore d.segs i + o) f = true ↔ ∃ g : Int, si.normGens[f]? = some g ∧ 0 ≤ g)
  file : ∀ (i : Nat) (si : SI), d.segs[i]? = some si → ∀ (f : Nat) (g : Int), si.normGens[f]? = some g → 0 ≤ g → ∃ name bytes, normFileName si f = .ok (some name) ∧
    (if si.compound ∧ g = 0 then d.cfs si.name name else d.files name) = some bytes ∧ si.docCnt.toNat ≤ bytes.length ∧
    ∀ o, o < si.docCnt.toNat → bytes[o]? = some (st.saved (docsBefore d.segs i + o) f)

theorem NormIndex.siOk {fields : List Bool} {d : Norms.Disk} {st : NState} {k : Nat} (h : NormIndex fields d st k) : All siSize (SiOk d.files d.cfs st.has st.saved k) 0 d.segs := by
  intro i si e
  have hm := List.mem_of_getElem? e
  have hb : 0 + ((d.segs.take i).map siSize).sum = docsBefore d.segs i := by rw [Nat.zero_add]; rfl
  rw [hb]
  refine ⟨(h.short si hm).1, (h.short si hm).2, fun f g hg h0 => (h.indexed si hm f g hg h0).2, ?_, ?_⟩
  · intro f o ho
    have := h.has i si e f o ho
    cases hg : si.normGens[f]? with
    | none =>
      rw [hg] at this
      cases hh : st.has (docsBefore d.segs i + o) f with
      | false => rfl
      | true =>
        obtain ⟨g, h1, _⟩ := this.1 hh
        cases h1
    | some g =>
      rw [hg] at this
      cases hh : st.has (docsBefore d.segs i + o) f with
      | false =>
        have hn : ¬ 0 ≤ g := fun h0 => by have := this.2 ⟨g, rfl, h0⟩; rw [hh] at this; cases this
        simp [hn]
      | true =>
        obtain ⟨g', h1, h0⟩ := this.1 hh
        cases h1
        simp [h0]
  · intro f g hg h0
    obtain ⟨name, c, h1, h2, h3, h4⟩ := h.file i si e f g hg h0
    refine ⟨name, c, h1, ?_, h3, ?_⟩
    · unfold place
      rw [hg]
      by_cases hc : si.compound = true ∧ g = 0
      · rw [if_pos hc] at h2
        rw [if_pos ⟨hc.1, by rw [hc.2]⟩]
        exact h2
      · rw [if_neg hc] at h2
        rw [if_neg (by rintro ⟨a, b⟩; cases b; exact hc ⟨a, rfl⟩)]
        exact h2
    · refine List.ext_getElem? ?_
      intro o
      rw [List.getElem?_take]
      unfold rowAt
      by_cases ho : o < siSize si
      · rw [if_pos ho, h4 o ho]
        simp [ho]
      · rw [if_neg ho]
        simp [ho]

/-- **Norms are kept.** In an index with any number of segments, compound or not, a program opens a reader and sets norms, reads them, commits and opens other readers in any order, with
document numbers that exist. Reads of its reader give what it set last, and what was in the index for others; readers that are opened give what was committed; norms
of fields that a segment has no norms for stay 0. Missing: document numbers that do not exist, readers over several indexes, and pointers that are kept (false, see below). -/
theorem c93_norms_partial (fields : List Bool) (d : Norms.Disk) (st : NState) (ops : List NOp) (hidx : NormIndex fields d st ops.length) (hcur : st.cur = st.saved)
    (hops : ∀ op ∈ ops, match op with | .set doc _ _ => doc < st.max | .into _ buf => buf.length = st.max | _ => True) :
    ∃ x, irOpen d = .ok x ∧ run fields d x ops = .ok (nrun st ops) := by
  obtain ⟨x, h1, h2⟩ := irOpen_ok (fields := fields) (st := st) hidx.names hidx.max hidx.siOk (fun si hm f g hg h0 => (hidx.indexed si hm f g hg h0).1)
  have hst : { st with cur := st.saved } = st := by cases st; cases hcur; rfl
  rw [hst] at h2
  refine ⟨x, h1, run_ok ops h2 ?_⟩
  intro op hop
  have := hops op hop
  cases op <;> exact this

/-! ### An index of two segments -/

/-- "_0" has two documents and norms for both fields; "_1" has one document, norms for the first field only, and is compound. -/
def seg0 : SI := ⟨[95, 48], 2, -1, [0, 0], false⟩
def seg1 : SI := ⟨[95, 49], 1, -1, [0], true⟩

/-- The norms: 10 and 11 for the first field, 20 and 21 for the second; 12 in the second segment. -/
def normDisk : Norms.Disk where
  files := fun n => if n = [95, 48, 95, 48, 46, 102, 48] then some [10, 11] else if n = [95, 48, 95, 48, 46, 102, 49] then some [20, 21] else none
  cfs := fun s n => if s = [95, 49] ∧ n = [95, 49, 95, 48, 46, 102, 48] then some [12] else none
  segs := [seg0, seg1]

def given (doc f : Nat) : Byte := if f = 0 then (if doc = 0 then 10 else if doc = 1 then 11 else 12) else (if doc = 0 then 20 else 21)

def normState : NState := ⟨3, fun doc f => if f = 0 then true else f = 1 ∧ doc < 2, given, given⟩

theorem normDisk_index (k : Nat) (hk : k < 1000) : NormIndex [true, true] normDisk normState k := by
  refine ⟨by decide, rfl, by decide, ?_, ?_, ?_⟩
  · intro si hm f g hg h0
    have hm : si = seg0 ∨ si = seg1 := by simpa [normDisk] using hm
    rcases hm with rfl | rfl
    · rcases f with _ | _ | f
      · cases hg; exact ⟨rfl, by omega⟩
      · cases hg; exact ⟨rfl, by omega⟩
      · simp [seg0] at hg
    · rcases f with _ | f
      · cases hg; exact ⟨rfl, by omega⟩
      · simp [seg1] at hg
  · intro i si e f o ho
    rcases i with _ | _ | i
    · cases e
      have ho : o < 2 := ho
      have hb : docsBefore normDisk.segs 0 = 0 := rfl
      rw [hb, Nat.zero_add]
      rcases f with _ | _ | f
      · exact ⟨fun _ => ⟨0, rfl, by omega⟩, fun _ => rfl⟩
      · exact ⟨fun _ => ⟨0, rfl, by omega⟩, fun _ => by simp [normState, ho]⟩
      · refine ⟨fun h => ?_, fun ⟨g, h, _⟩ => by simp [seg0] at h⟩
        simp [normState] at h
    · cases e
      have ho : o < 1 := ho
      have hb : docsBefore normDisk.segs 1 = 2 := rfl
      rw [hb]
      rcases f with _ | f
      · exact ⟨fun _ => ⟨0, rfl, by omega⟩, fun _ => rfl⟩
      · refine ⟨fun h => ?_, fun ⟨g, h, _⟩ => by simp [seg1] at h⟩
        simp [normState] at h
        omega
    · simp [normDisk] at e
  · intro i si e f g hg h0
    rcases i with _ | _ | i
    · cases e
      have hb : docsBefore normDisk.segs 0 = 0 := rfl
      rcases f with _ | _ | f
      · cases hg
        refine ⟨[95, 48, 95, 48, 46, 102, 48], [10, 11], by decide +kernel, rfl, by decide, ?_⟩
        intro o ho
        have ho : o < 2 := ho
        rw [hb]
        rcases o with _ | _ | o
        · rfl
        · rfl
        · omega
      · cases hg
        refine ⟨[95, 48, 95, 48, 46, 102, 49], [20, 21], by decide +kernel, rfl, by decide, ?_⟩
        intro o ho
        have ho : o < 2 := ho
        rw [hb]
        rcases o with _ | _ | o
        · rfl
        · rfl
        · omega
      · simp [seg0] at hg
    · cases e
      have hb : docsBefore normDisk.segs 1 = 2 := rfl
      rcases f with _ | f
      · cases hg
        refine ⟨[95, 49, 95, 48, 46, 102, 48], [12], by decide +kernel, rfl, by decide, ?_⟩
        intro o ho
        have ho : o < 1 := ho
        rw [hb]
        rcases o with _ | o
        · rfl
        · omega
      · simp [seg1] at hg
    · simp [normDisk] at e

/-- Norms are set in both segments, read, seen by others after the commit only, and set again. -/
def normSession : List NOp :=
  [.norms 0, .set 2 0 99, .norms 0, .other 0, .set 0 1 98, .set 2 1 97, .commit, .other 0, .other 1, .set 2 0 96, .into 0 [7, 7, 7], .commit, .other 0, .norms 1]

def seenIn : List (List Byte) :=
  [[10, 11, 12], [], [10, 11, 99], [10, 11, 12], [], [], [], [10, 11, 99], [98, 21, 0], [], [10, 11, 96], [], [10, 11, 96], [98, 21, 0]]

example : NormIndex [true, true] normDisk normState normSession.length ∧ nrun normState normSession = seenIn := ⟨normDisk_index _ (by decide), by decide +kernel⟩

example : (irOpen normDisk >>= fun x => run [true, true] normDisk x normSession) = .ok seenIn := by decide +kernel

/-! ### What does not hold -/

/-- **Document numbers are not checked.** Setting the norm of a document that is not in the segment writes outside of the array. -/
theorem c93_unchecked (r : Sr) (f : Nat) (n : Norm) (doc : Int) (v : Byte) (hf : r.norms f = some n) (b : List Byte) (hb : n.bytes = some b) (hd : doc < 0 ∨ b.length ≤ doc) :
    irSet (.one r) doc f v = .ub := by
  unfold irSet srSet
  simp only [hf]
  unfold srNorms
  simp only [hf, hb, Res.ok_bind]
  rw [if_neg (by omega)]
  rfl

/-- In the index above, document 3 of 3. -/
example : (irOpen normDisk >>= fun x => irSet x 3 0 1 >>= fun _ => .ok ()) = Res.ub := by decide +kernel

/-- Two readers of one document each, whose fields are numbered the other way round: field 0 of the second is field 1 of both together. -/
def swapped : Mr :=
  let r : Sr := ⟨⟨[95, 48], 1, -1, [0, 0], false⟩, fun f => if f = 0 then some ⟨[1], none, false⟩ else if f = 1 then some ⟨[2], none, false⟩ else none, false, false⟩
  ⟨[r, r], some [[0, 1], [1, 0]], fun _ => none, fun _ => 0, false⟩

/-- **The wrong array is forgotten.** The norms of field 1 of both are read; that of the second document is set; and they are read again, as before. The norms that would be read without the first reading. -/
theorem c93_stale :
    (mrNorms swapped 1 >>= fun x => mrSet x.2 1 1 9 >>= fun m => mrNorms m 1 >>= fun y => .ok (x.1.2, y.1.2)) = .ok ([2, 1], [2, 1]) ∧
    (mrSet swapped 1 1 9 >>= fun m => mrNorms m 1 >>= fun y => .ok y.1.2) = .ok [2, 9] := by
  constructor <;> decide +kernel

/-- **Memory is not cleared.** The second reader does not have the field: reading gives 0, reading into memory leaves what was there. -/
theorem c93_not_cleared :
    let r : Sr := ⟨⟨[95, 48], 1, -1, [0], false⟩, fun f => if f = 0 then some ⟨[5], none, false⟩ else none, false, false⟩
    let m : Mr := ⟨[r, r], some [[0], [-1]], fun _ => none, fun _ => 0, false⟩
    (mrNorms m 0 >>= fun y => .ok y.1.2) = .ok [5, 0] ∧ mrInto m 0 [7, 7] = .ok [5, 7] := by
  constructor <;> decide +kernel

/-- **The array of a running search is freed.** With several segments, the norms that a search has taken cannot be read any more when a norm of the field is set. -/
theorem c93_freed (m : Mr) (hmap : m.map = none) (f : Nat) (doc : Int) (v : Byte) (m' : Mr) (h : mrSet m doc f v = .ok m') (which : Nat) : mrLook m' f which = .ub := by
  unfold mrSet at h
  rw [Res.bind_eq_ok] at h
  obtain ⟨x, _, h⟩ := h
  unfold Mr.fieldNum at h
  rw [hmap] at h
  dsimp only at h
  rw [Res.ok_bind, if_neg (by omega)] at h
  cases e : m.subs[x.1]? with
  | none => rw [e] at h; cases h
  | some r =>
    rw [e] at h
    dsimp only at h
    rw [Res.bind_eq_ok] at h
    obtain ⟨r', _, h⟩ := h
    cases h
    unfold mrLook
    rw [Int.toNat_natCast]
    simp

/-- The search reads before, and not after. -/
example : (irOpen normDisk >>= fun x => match x with
    | .many m => mrNorms m 0 >>= fun y => mrLook y.2 0 y.1.1 >>= fun b => mrSet y.2 0 0 1 >>= fun m => match mrLook m 0 y.1.1 with | .ub => .ok b | _ => .ub
    | _ => .ub) = Res.ok [10, 11, 12] := by decide +kernel

/-- **Span queries read norms that are not there.** In an index of one segment, the score of a span query in a field without norms reads at a null pointer; with several segments it reads 0. -/
theorem c93_span_null (r : Sr) (f doc : Nat) (hf : r.norms f = none) : spanNorm (.one r) f doc = .ub := by
  unfold spanNorm srNorms
  simp only [hf, Res.ok_bind]

/-- The second field of the second segment: alone, and with the first segment. -/
example : (irOpen { normDisk with segs := [seg1] } >>= fun x => spanNorm x 1 0) = .ub ∧ (irOpen normDisk >>= fun x => spanNorm x 1 2) = .ok 0 := by
  constructor <;> decide +kernel

#print axioms c93_norms_partial
#print axioms c93_unchecked
#print axioms c93_stale
#print axioms c93_not_cleared
#print axioms c93_freed
#print axioms c93_span_null
end Ferret.Props
