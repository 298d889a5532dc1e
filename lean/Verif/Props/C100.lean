import Verif.Lemmas.PackSeg

namespace Ferret.Props
open Ferret Ferret.Spec Ferret.Store Ferret.Names Ferret.Sis Ferret.Compound Ferret.Fis Ferret.PackSeg

/-- "name.cfs" -/
def cfsOf (name : Name) : Name := name ++ [46, 99, 102, 115]

/-- **C100.** A new segment whose norms were written for any fields that have norms, and that a
reader can open from its files, is put into a compound file: nothing fails, a reader opens the same
streams from the compound file, and reading them gives the same, both before and after the pending
files are removed. Until then all other files are as they were; removed are the segment's own files
and those that were to be removed before, nothing else. -/
theorem c100_packed_reads_same_partial (d : Disk) (pending : List Name) (fis : FIS) (name : Name) (docs : Int) (fields : List Nat) (plain : List (Name × InS))
    (hname : name.length ≤ 60) (hnodup : fields.Nodup) (hfields : ∀ f ∈ fields, ∃ fi, fis.fields[f]? = some fi ∧ hasNorms fi = true)
    (hcount' : fis.fields.length + 7 < 2 ^ 31) (hplain : openSegment d (newSegmentInfo name docs fields) = .ok plain)
    (hold : ∀ c, d.get (cfsOf name) = some c → c.length ≤ sizeOf d (plain.map (·.1)))
    (hsize : sizeOf d (plain.map (·.1)) + 120 * (plain.length + 1) < 2 ^ 63) (hpending : cfsOf name ∉ pending) :
    ∃ l packed, packSegment d pending fis (newSegmentInfo name docs fields) false = .ok l ∧ l.done = true ∧
      l.si = { newSegmentInfo name docs fields with compound := true } ∧
      openSegment l.disk l.si = .ok packed ∧ openSegment (commitPending l.disk l.pending) l.si = .ok packed ∧
      packed.map (·.1) = plain.map (·.1) ∧
      (∀ (i : Nat) (n : Name) (s t : InS), plain[i]? = some (n, s) → packed[i]? = some (n, t) → ∃ c, d.get n = some c ∧ ReadSame c s t) ∧
      (∀ n, n ≠ cfsOf name → l.disk.get n = d.get n) ∧
      (∀ n, (commitPending l.disk l.pending).get n = if n ∈ pending ∨ n ∈ plain.map (·.1) then none else l.disk.get n) := by
  have hcount : fis.fields.length < 2 ^ 31 := by omega
  have hlt : ∀ f ∈ fields, f < fis.fields.length := by
    intro f hf
    obtain ⟨fi, h1, -⟩ := hfields f hf
    exact (List.getElem?_eq_some_iff.1 h1).1
  have hseg : NewSeg name fis.fields.length (fields.reverse ++ []) (newSegmentInfo name docs fields) :=
    newSegmentInfo_spec name docs fis.fields.length fields [] _ ⟨rfl, rfl, Nat.zero_le _, by intro f g h; simp [siNew] at h, by simp⟩ hlt hnodup (by simp)
  rw [List.append_nil] at hseg
  generalize newSegmentInfo name docs fields = si at hseg hplain ⊢
  generalize hdone : fields.reverse = done at hseg
  have hdn : ∀ f ∈ done, ∃ fi, fis.fields[f]? = some fi ∧ hasNorms fi = true := by
    intro f hf; rw [← hdone] at hf; exact hfields f (by simpa using hf)
  have hsi : ({ si with compound := false } : SI) = si := by
    have := hseg.plain
    cases si
    simp only at this
    rw [this]
  have hopen := openSegment_eq d hname hcount hseg false
  rw [hsi, hplain, if_neg Bool.false_ne_true] at hopen
  obtain ⟨hpn, hps⟩ := openAll_ok hopen.symm
  -- the files and their contents
  have hperm := perm_names name done fis.fields.length
  have hget : ∀ n ∈ packNames name done fis.fields.length, d.get n = some ((d.get n).getD []) := by
    intro n hn
    have hn' : n ∈ plain.map (·.1) := by rw [hpn]; exact (hperm.mem_iff).1 hn
    obtain ⟨p, hp1, rfl⟩ := List.mem_map.1 hn'
    have := hps p hp1
    unfold fromStore Sis.openInput at this
    cases hg : d.get p.1 with
    | none => rw [hg] at this; cases this
    | some c => rfl
  have hdist := packNames_distinct hname done hcount
  have hlen100 : ∀ n ∈ packNames name done fis.fields.length, n.length < 100 := by
    intro n hn
    rcases List.mem_append.1 hn with h | h
    · obtain ⟨x, hx, rfl⟩ := List.mem_map.1 h
      have : ∀ e ∈ packExts, e.length = 3 := by decide
      have := this x hx
      simp only [List.length_append, List.length_cons]
      omega
    · obtain ⟨f, hf, rfl⟩ := mem_normNames h
      have := (dec_ok (f := f) (by omega)).2
      simp only [nm, List.length_append, List.length_cons, List.length_nil]
      omega
  have hcfs : cfsOf name ∉ packNames name done fis.fields.length := by
    intro hn
    rcases List.mem_append.1 hn with h | h
    · obtain ⟨x, hx, e⟩ := List.mem_map.1 h
      have := (List.cons.inj (List.append_cancel_left e)).2
      subst this
      revert hx
      decide
    · obtain ⟨f, hf, e⟩ := mem_normNames h
      exact ext_ne_nm name [99, 102, 115] f e
  have hplen : plain.length = (packNames name done fis.fields.length).length := by
    rw [hperm.length_eq, ← hpn, List.length_map]
  have hsz : sizeOf d (plain.map (·.1)) = ((packNames name done fis.fields.length).map fun n => (d.get n).getD []).flatten.length := by
    rw [hpn, ← sizeOf_perm hperm, sizeOf_flatten]
  obtain ⟨hb1, hb2⟩ := cmpdBytes_le (packNames name done fis.fields.length) ((packNames name done fis.fields.length).map fun n => (d.get n).getD []) hlen100
  have hm1 : ((packNames name done fis.fields.length).map fun n => (n, (d.get n).getD [])).map (·.1) = packNames name done fis.fields.length := by
    rw [List.map_map]; exact List.map_id _
  have hm2 : ((packNames name done fis.fields.length).map fun n => (n, (d.get n).getD [])).map (·.2) = (packNames name done fis.fields.length).map fun n => (d.get n).getD [] := by
    rw [List.map_map]; rfl
  have hcnt : (packNames name done fis.fields.length).length ≤ 7 + fis.fields.length := by
    have := normNames_length (name := name) (done := done) fis.fields.length
    simp only [packNames, List.length_append, List.length_map]
    have e : packExts.length = 7 := rfl
    omega
  obtain ⟨d', c, h1, h2, h3, h4, -⟩ := c12_compound_partial d (cfsOf name) ((packNames name done fis.fields.length).map fun n => (n, (d.get n).getD []))
    (by simp [packNames, packExts]) (by rw [hm1]; exact hdist)
    (by intro f hf; obtain ⟨n, hn, rfl⟩ := List.mem_map.1 hf; exact hget n hn)
    (by rw [List.length_map]; omega)
    (by intro f hf; obtain ⟨n, hn, rfl⟩ := List.mem_map.1 hf; have := hlen100 n hn; show n.length < _; omega)
    (by intro x hx; rw [hm1, hm2]; have := hold x hx; omega)
    (by rw [hm1, hm2]; omega)
  rw [hm1] at h1
  have hsrc : ∀ n ∈ readNames name done fis.fields.length, ∃ s, cmpdOpenInput c n = .ok s ∧
      ∀ cmds obs, inCmds ((d.get n).getD []) [0] cmds = some obs → doIns [s] cmds = .ok obs := by
    intro n hn
    obtain ⟨-, -, s, hs, ho, -⟩ := h4 (n, (d.get n).getD []) (List.mem_map.2 ⟨n, hperm.mem_iff.2 hn, rfl⟩)
    exact ⟨s, hs, ho⟩
  obtain ⟨packed, hpk⟩ := openAll_exists (src := cmpdOpenInput c) fun n hn => (hsrc n hn).imp fun _ h => h.1
  obtain ⟨hkn, hks⟩ := openAll_ok hpk
  -- the queue
  have hext : ∀ e ∈ packExts, e.length = 3 := by decide
  have hd1 : ([] ++ packExts.map fun e => name ++ 46 :: e).Pairwise (· ≠ ·) := by
    rw [List.nil_append]
    exact (List.pairwise_append.1 hdist).1
  let pend := (packNames name done fis.fields.length).foldl queueFile pending
  have hpack : packSegment d pending fis si false = .ok ⟨true, d', pend, { si with compound := true }⟩ := by
    unfold packSegment
    rw [extName_ok hseg.name hname (by rfl), Res.ok_bind, moveExts_spec hseg.name hname _ _ _ hext hd1, Res.ok_bind,
      moveNorms_spec hname hseg fis.fields hdn _ _ _ (Nat.le_refl _) hcount (by rw [List.nil_append]; exact hdist), Res.ok_bind, if_neg Bool.false_ne_true]
    dsimp only
    rw [List.nil_append]
    have e : (packExts.map fun e => name ++ 46 :: e) ++ normNames name done fis.fields.length = packNames name done fis.fields.length := rfl
    rw [e, show name ++ 46 :: [99, 102, 115] = cfsOf name from rfl, h1, Res.ok_bind, ← List.foldl_append]
    rfl
  have hmem : ∀ n, n ∈ pend ↔ n ∈ pending ∨ n ∈ plain.map (·.1) := by
    intro n
    rw [mem_queueAll, hpn, hperm.mem_iff]
  have hcp : cfsOf name ∉ pend := by
    rw [mem_queueAll]
    rintro (h | h)
    · exact hpending h
    · exact hcfs h
  have hcm : cmpdOpen (commitPending d' pend) (cfsOf name) = .ok c := by
    rw [← h2]
    unfold cmpdOpen Sis.openInput
    rw [get_commitPending, if_neg hcp]
  refine ⟨_, packed, hpack, rfl, rfl, ?_, ?_, by rw [hkn, hpn], ?_, h3, ?_⟩
  · rw [openSegment_eq d' hname hcount hseg true, if_pos rfl, show name ++ [46, 99, 102, 115] = cfsOf name from rfl, h2, Res.ok_bind]
    exact hpk
  · rw [openSegment_eq _ hname hcount hseg true, if_pos rfl, show name ++ [46, 99, 102, 115] = cfsOf name from rfl]
    show (cmpdOpen (commitPending d' pend) (cfsOf name) >>= _) = _
    rw [hcm, Res.ok_bind]
    exact hpk
  · intro i n s t hs ht
    have hs' := hps _ (List.mem_of_getElem? hs)
    have ht' := hks _ (List.mem_of_getElem? ht)
    have hn : n ∈ readNames name done fis.fields.length := by
      rw [← hpn]; exact List.mem_map.2 ⟨_, List.mem_of_getElem? hs, rfl⟩
    obtain ⟨t', h5, h6⟩ := hsrc n hn
    have e : t = t' := by
      have : cmpdOpenInput c n = .ok t := ht'
      rw [h5] at this
      exact (Res.ok.inj this).symm
    have hc := hget n (hperm.mem_iff.2 hn)
    refine ⟨_, hc, ?_⟩
    intro cmds obs ho
    refine ⟨?_, by rw [e]; exact h6 cmds obs ho⟩
    have hs2 : s = isOpen (.fs ((d.get n).getD [])) := by
      have h7 : fromStore d n = .ok s := hs'
      unfold fromStore Sis.openInput at h7
      rw [hc] at h7
      exact (Res.ok.inj h7).symm
    rw [hs2]
    refine doIns_spec cmds (ps := [0]) ⟨rfl, ?_⟩ ho
    intro j s p h8 h9
    cases j with
    | zero =>
      cases h8
      cases h9
      exact isOpen_spec (f := .fs ((d.get n).getD [])) trivial
    | succ j => simp at h8
  · intro n
    rw [get_commitPending]
    simp only [hmem]

/-- "_0" with the fields a (norms), b (no norms) and c (norms). -/
def packFis : FIS := ⟨1, 3, 7, [⟨[97], boostOne, 13, 0⟩, ⟨[98], boostOne, 29, 1⟩, ⟨[99], boostOne, 13, 2⟩]⟩

def packFiles : Disk :=
  [([95, 48, 46, 102, 100, 116], [1, 2, 3]), ([95, 48, 46, 102, 100, 120], [4]), ([95, 48, 46, 116, 102, 120], [5]), ([95, 48, 46, 116, 105, 120], []),
   ([95, 48, 46, 116, 105, 115], [6]), ([95, 48, 46, 102, 114, 113], [7, 8]), ([95, 48, 46, 112, 114, 120], [9]),
   ([95, 48, 95, 48, 46, 102, 48], [10, 11]), ([95, 48, 95, 48, 46, 102, 50], [12, 13]), ([95, 50, 46, 99, 102, 115], [0])]

/-- What a reader finds: the names of the files and, from each, bytes until the end, at most six. -/
def readAll (d : Disk) (si : SI) : Res (List (Name × List InObs)) :=
  openSegment d si >>= fun ss => ss.foldr (fun p r => doIns [p.2] (List.replicate 6 (.byte 0)) >>= fun o => r >>= fun r => .ok ((p.1, o.filter (· ≠ .eof)) :: r)) (.ok [])

/-- A segment with the norms of two fields, while a file of an older segment is pending, meets the
hypotheses. -/
example : ∃ l packed, packSegment packFiles [[95, 50, 46, 99, 102, 115]] packFis (newSegmentInfo [95, 48] 2 [2, 0]) false = .ok l ∧
    openSegment (commitPending l.disk l.pending) l.si = .ok packed ∧ packed.length = 9 := by
  have hp : ∃ plain, openSegment packFiles (newSegmentInfo [95, 48] 2 [2, 0]) = .ok plain ∧ plain.length = 9 ∧ sizeOf packFiles (plain.map (·.1)) = 13 :=
    ⟨_, rfl, rfl, rfl⟩
  obtain ⟨plain, h1, h2, h3⟩ := hp
  obtain ⟨l, packed, g1, -, -, -, g2, g3, -⟩ := c100_packed_reads_same_partial packFiles [[95, 50, 46, 99, 102, 115]] packFis [95, 48] 2 [2, 0] plain
    (by decide) (by decide) (by decide) (by decide) h1 (by intro c h; cases h) (by rw [h2, h3]; decide) (by decide)
  exact ⟨l, packed, g1, g2, by have := congrArg List.length g3; simpa [h2] using this⟩

/-- What is read from the compound file. -/
example : (packSegment packFiles [[95, 50, 46, 99, 102, 115]] packFis (newSegmentInfo [95, 48] 2 [2, 0]) false >>= fun l =>
      readAll (commitPending l.disk l.pending) l.si >>= fun r => .ok ((commitPending l.disk l.pending).names, r.map (·.2))) =
    .ok ([[95, 48, 46, 99, 102, 115]], [[.byte 1, .byte 2, .byte 3], [.byte 4], [.byte 5], [], [.byte 6], [.byte 7, .byte 8], [.byte 9], [.byte 12, .byte 13], [.byte 10, .byte 11]]) := by
  decide +kernel

/-- **C100, a failure.** If the store raises while the compound file is written, the segment stays in
the list with its own files, but these are already pending: when pending files are next removed (at
the next commit, which lists the segment), no reader can open it any more. Its documents are lost. -/
theorem c100_failure_loses_segment (d : Disk) (pending : List Name) (fis : FIS) (name : Name) (docs : Int) (fields : List Nat)
    (hname : name.length ≤ 60) (hnodup : fields.Nodup) (hfields : ∀ f ∈ fields, ∃ fi, fis.fields[f]? = some fi ∧ hasNorms fi = true)
    (hcount : fis.fields.length < 2 ^ 31) :
    ∃ l, packSegment d pending fis (newSegmentInfo name docs fields) true = .ok l ∧ l.done = false ∧ l.disk = d ∧ l.si = newSegmentInfo name docs fields ∧
      openSegment (commitPending l.disk l.pending) l.si = .raise .fileNotFound := by
  have hlt : ∀ f ∈ fields, f < fis.fields.length := by
    intro f hf
    obtain ⟨fi, h1, -⟩ := hfields f hf
    exact (List.getElem?_eq_some_iff.1 h1).1
  have hseg : NewSeg name fis.fields.length (fields.reverse ++ []) (newSegmentInfo name docs fields) :=
    newSegmentInfo_spec name docs fis.fields.length fields [] _ ⟨rfl, rfl, Nat.zero_le _, by intro f g h; simp [siNew] at h, by simp⟩ hlt hnodup (by simp)
  rw [List.append_nil] at hseg
  generalize newSegmentInfo name docs fields = si at hseg ⊢
  have hdn : ∀ f ∈ fields.reverse, ∃ fi, fis.fields[f]? = some fi ∧ hasNorms fi = true := by
    intro f hf; exact hfields f (by simpa using hf)
  have hsi : ({ si with compound := false } : SI) = si := by
    have := hseg.plain
    cases si
    simp only at this
    rw [this]
  have hdist := packNames_distinct hname fields.reverse hcount
  have hext : ∀ e ∈ packExts, e.length = 3 := by decide
  have hd1 : ([] ++ packExts.map fun e => name ++ 46 :: e).Pairwise (· ≠ ·) := by
    rw [List.nil_append]
    exact (List.pairwise_append.1 hdist).1
  refine ⟨⟨false, d, (packNames name fields.reverse fis.fields.length).foldl queueFile pending, si⟩, ?_, rfl, rfl, rfl, ?_⟩
  · unfold packSegment
    rw [extName_ok hseg.name hname (by rfl), Res.ok_bind, moveExts_spec hseg.name hname _ _ _ hext hd1, Res.ok_bind,
      moveNorms_spec hname hseg fis.fields hdn _ _ _ (Nat.le_refl _) hcount (by rw [List.nil_append]; exact hdist), Res.ok_bind, if_pos rfl, ← List.foldl_append]
    rfl
  · show openSegment (commitPending d _) si = _
    rw [← hsi, openSegment_eq _ hname hcount hseg false, if_neg Bool.false_ne_true]
    have hg : (commitPending d ((packNames name fields.reverse fis.fields.length).foldl queueFile pending)).get (name ++ 46 :: [102, 100, 116]) = none := by
      rw [get_commitPending, if_pos]
      rw [mem_queueAll]
      exact .inr (List.mem_append_left _ (List.mem_map.2 ⟨_, by decide, rfl⟩))
    rw [readNames, readExts, List.map_cons, List.cons_append, PackSeg.openAll, fromStore, Sis.openInput, hg]
    rfl

/-- The segment above, after a failure and the next commit. -/
example : (packSegment packFiles [] packFis (newSegmentInfo [95, 48] 2 [2, 0]) true >>= fun l => readAll l.disk l.si >>= fun r => .ok r.length) = .ok 9 ∧
    (packSegment packFiles [] packFis (newSegmentInfo [95, 48] 2 [2, 0]) true >>= fun l => readAll (commitPending l.disk l.pending) l.si) = .raise .fileNotFound := by
  decide +kernel

/-- **C100, an old file.** A longer file of the name of the compound file (left by a process that
stopped) is written over but not cut: the last stream, here the norms of the first field, goes on
with its bytes. -/
theorem c100_stale_file_read : (packSegment (packFiles ++ [([95, 48, 46, 99, 102, 115], List.replicate 300 99)]) [] packFis (newSegmentInfo [95, 48] 2 [2, 0]) false >>= fun l =>
      readAll (commitPending l.disk l.pending) l.si >>= fun r => .ok (r.map (·.2))) =
    .ok [[.byte 1, .byte 2, .byte 3], [.byte 4], [.byte 5], [], [.byte 6], [.byte 7, .byte 8], [.byte 9], [.byte 12, .byte 13], [.byte 10, .byte 11, .byte 99, .byte 99, .byte 99, .byte 99]] := by
  decide +kernel

#print axioms c100_packed_reads_same_partial
#print axioms c100_failure_loses_segment
#print axioms c100_stale_file_read
end Ferret.Props
