import Verif.Lemmas.Compound
import Verif.Props.C09

/-! C12: compound files. -/

namespace Ferret.Props
open Ferret Ferret.Spec Ferret.Store Ferret.Compound

/-- The stream of the compound file, wherever other members have left it, gives the bytes a member
asks for (what `readI` says of members, from the behaviour of streams, C09). -/
theorem c12_sub_stream {sub : InS} {base : List Byte} {p : Nat} (h : InOK sub base p) (off start n : Nat) (hn : off + start + n ≤ base.length) :
    ∃ sub', isReadBytes (isSeek sub (off + start)) n = .ok (slice base (off + start) n, sub') ∧ InOK sub' base (off + start + n) :=
  isReadBytes_spec (isSeek_spec h _) n (Or.inl hn)

/-- Adding files to the writer: distinct names are kept in order, a name added twice is an error. -/
theorem c12_add (ids xs : List Name) (h : ids.Pairwise (· ≠ ·)) :
    cwAdds ids xs = if (ids ++ xs).Pairwise (· ≠ ·) then .ok (ids ++ xs) else .raise .io := by
  induction xs generalizing ids with
  | nil => simp [cwAdds, h]
  | cons x xs ih =>
    simp only [cwAdds, cwAdd]
    by_cases hx : x ∈ ids
    · rw [if_pos (by simpa using hx), Res.raise_bind, if_neg]
      intro hp
      rw [List.pairwise_append] at hp
      exact hp.2.2 x hx x (by simp) rfl
    · have hp : (ids ++ [x]).Pairwise (· ≠ ·) := by
        rw [List.pairwise_append]
        exact ⟨h, by simp, fun a ha b hb e => by simp only [List.mem_singleton] at hb; subst hb e; exact hx ha⟩
      rw [if_neg (by simpa using hx), Res.ok_bind, ih _ hp, List.append_assoc, List.singleton_append]

/-- The bytes of a compound file. -/
def cmpdBytes (ids : List Name) (cs : List (List Byte)) : List Byte :=
  vint ids.length ++ (dirBytes (dataPos ((vint ids.length).length + (dirBytes (List.replicate ids.length 0) ids).length) cs) ids ++ cs.flatten)

theorem cwClose_bytes {d : Disk} {name : Name} {ids : List Name} {cs : List (List Byte)} (hne : ids ≠ []) (hcs : ids.map d.get = cs.map some)
    (hold : ∀ c, d.get name = some c → c.length ≤ (cmpdBytes ids cs).length) :
    cwClose d name ids = .ok ((d.filter fun p => !(p.1 == name)) ++ [(name, cmpdBytes ids cs)]) := by
  have hlen : cs.length = ids.length := by have := congrArg List.length hcs; simpa using this.symm
  unfold cwClose
  rw [if_neg hne]
  dsimp only
  have h0 : put ((d.get name).getD [], 0) (vint ids.length) = (vint ids.length ++ ((d.get name).getD []).drop (vint ids.length).length, (vint ids.length).length) := by
    have := put_seq ((d.get name).getD []) [] (vint ids.length)
    simpa using this
  rw [h0, writeDir_spec]
  dsimp only
  rw [writeData_spec d _ ids cs _ hcs, Res.ok_bind]
  dsimp only
  have hl0 : (vint ids.length ++ dirBytes (List.replicate ids.length 0) ids ++ cs.flatten).length = (cmpdBytes ids cs).length := by
    unfold cmpdBytes
    simp only [List.length_append]
    have := dirBytes_length ids (List.replicate ids.length 0) (dataPos ((vint ids.length).length + (dirBytes (List.replicate ids.length 0) ids).length) cs) (by simp) (by rw [dataPos_length]; exact hlen)
    omega
  have hdrop : ((d.get name).getD []).drop (vint ids.length ++ dirBytes (List.replicate ids.length 0) ids ++ cs.flatten).length = [] := by
    rw [hl0]
    cases h : d.get name with
    | none => simp
    | some c => exact List.drop_eq_nil_of_le (hold c h)
  rw [hdrop, List.append_nil, List.append_assoc]
  rw [patch_spec ids _ _ _ _ (by rw [dataPos_length]; exact hlen) (by simp)]
  unfold cmpdBytes
  rw [List.length_append]

theorem cmpdOpen_bytes {d : Disk} {name : Name} {ids : List Name} {cs : List (List Byte)} (hlen : cs.length = ids.length) (hget : d.get name = some (cmpdBytes ids cs))
    (hcount : ids.length < 2 ^ 31) (hid : ∀ id ∈ ids, id.length < 2 ^ 32) (hsize : (cmpdBytes ids cs).length < 2 ^ 63) :
    cmpdOpen d name = .ok ⟨cmpdBytes ids cs, members ((vint ids.length).length + (dirBytes (List.replicate ids.length 0) ids).length) ids cs⟩ := by
  have hdl := dirBytes_length ids (List.replicate ids.length 0) (dataPos ((vint ids.length).length + (dirBytes (List.replicate ids.length 0) ids).length) cs) (by simp) (by rw [dataPos_length]; exact hlen)
  have htot : (cmpdBytes ids cs).length = (vint ids.length).length + (dirBytes (List.replicate ids.length 0) ids).length + cs.flatten.length := by
    unfold cmpdBytes
    simp only [List.length_append]
    omega
  have hpos : ∀ (cs : List (List Byte)) (p o : Nat), o ∈ dataPos p cs → o ≤ p + cs.flatten.length := by
    intro cs
    induction cs with
    | nil => intro p o h; cases h
    | cons c cs ih =>
      intro p o h
      simp only [dataPos, List.mem_cons] at h
      rw [List.flatten_cons, List.length_append]
      rcases h with h | h
      · omega
      · have := ih _ _ h; omega
  unfold cmpdOpen
  simp only [Sis.openInput, hget, Res.ok_bind]
  rw [show rdVint (cmpdBytes ids cs) = .ok (ids.length, dirBytes (dataPos ((vint ids.length).length + (dirBytes (List.replicate ids.length 0) ids).length) cs) ids ++ cs.flatten) from
    (exact_vint ids.length (by omega)).full _, Res.ok_bind]
  dsimp only
  have hs : toS 4 ids.length = (ids.length : Int) := by unfold toS; rw [if_pos (by omega)]
  rw [hs]
  have hcnt : (if (ids.length : Int) > 0 then ids.length else 0) = ids.length := by split <;> omega
  rw [hcnt, readDir_spec ids _ _ (by rw [dataPos_length]; exact hlen) (fun o ho => by have := hpos _ _ _ ho; omega) hid, Res.ok_bind]
  dsimp only
  rw [htot, lengths_spec ids cs _ hlen]

/-- **C12.** Any files of the directory — distinct names, any sizes — are packed into a compound file
that did not exist, or was not longer than the new one. Then opening it presents exactly these
names, each with its exact length; whatever sequence of single and block reads, seeks and clones is
made on a stream of a member, what is observed are the bytes of the member, ending where it ends;
and reading a block that goes past its end raises EOF. The other files are as they were. The files
together are less than 2^63 bytes, and fewer than 2^31.

Missing: a longer file of that name (`c12_stale_file`). -/
theorem c12_compound_partial (d : Disk) (name : Name) (files : List (Name × List Byte)) (hne : files ≠ []) (hdist : (files.map (·.1)).Pairwise (· ≠ ·))
    (hfiles : ∀ f ∈ files, d.get f.1 = some f.2) (hcount : files.length < 2 ^ 31) (hid : ∀ f ∈ files, f.1.length < 2 ^ 32)
    (hold : ∀ c, d.get name = some c → c.length ≤ (cmpdBytes (files.map (·.1)) (files.map (·.2))).length)
    (hsize : (cmpdBytes (files.map (·.1)) (files.map (·.2))).length < 2 ^ 63) :
    ∃ d' c, cwClose d name (files.map (·.1)) = .ok d' ∧ cmpdOpen d' name = .ok c ∧
      (∀ m, m ≠ name → d'.get m = d.get m) ∧
      (∀ f ∈ files, cmpdExists c f.1 = true ∧ cmpdLength c f.1 = f.2.length ∧ ∃ s, cmpdOpenInput c f.1 = .ok s ∧
        (∀ cmds obs, inCmds f.2 [0] cmds = some obs → doIns [s] cmds = .ok obs) ∧
        (∀ cmds i n obs p, inCmds f.2 [0] (cmds ++ [.pos i]) = some obs → obs.getLast? = some (.pos p) → p + n > f.2.length → doIns [s] (cmds ++ [.bytes i n]) = .raise .eof)) ∧
      (∀ id, id ∉ files.map (·.1) → cmpdExists c id = false ∧ cmpdLength c id = 0 ∧ cmpdOpenInput c id = .raise .io) := by
  have hne' : files.map (·.1) ≠ [] := by simpa using hne
  have hcs : (files.map (·.1)).map d.get = (files.map (·.2)).map some := by
    simp only [List.map_map]
    exact List.map_congr_left fun f hf => hfiles f hf
  have hlen : (files.map (·.2)).length = (files.map (·.1)).length := by simp
  have hclose := cwClose_bytes hne' hcs hold
  generalize hB : cmpdBytes (files.map (·.1)) (files.map (·.2)) = B at *
  have hget : Disk.get ((d.filter fun p => !(p.1 == name)) ++ [(name, B)]) name = some B := by
    unfold Disk.get
    rw [List.find?_append]
    have : (d.filter fun p => !(p.1 == name)).find? (fun p => p.1 == name) = none := by
      rw [List.find?_eq_none]
      intro x hx
      simpa using (List.mem_filter.1 hx).2
    rw [this]
    simp
  have hother : ∀ m, m ≠ name → Disk.get ((d.filter fun p => !(p.1 == name)) ++ [(name, B)]) m = d.get m := by
    intro m hm
    have h1 : Disk.get (d.filter fun p => !(p.1 == name)) m = d.get m := Disk.get_apply_ne d (.del name) m (fun e => hm e.symm)
    unfold Disk.get at *
    rw [List.find?_append, List.find?_cons_of_neg (by simpa using fun e => hm e.symm), List.find?_nil, Option.or_none]
    exact h1
  have hopen := cmpdOpen_bytes hlen (by rw [hB]; exact hget) (by simpa using hcount) (by simpa using fun a x b => hid _ b) (by rw [hB]; exact hsize)
  rw [hB] at hopen
  refine ⟨_, _, hclose, hopen, hother, ?_, ?_⟩
  · intro f hf
    have hpre : B = (vint (files.map (·.1)).length ++ dirBytes (dataPos ((vint (files.map (·.1)).length).length +
        (dirBytes (List.replicate (files.map (·.1)).length 0) (files.map (·.1))).length) (files.map (·.2))) (files.map (·.1))) ++ ((files.map (·.2)).flatten ++ []) := by
      rw [← hB]; unfold cmpdBytes; simp only [List.append_assoc, List.append_nil]
    obtain ⟨o, h1, h2, h3⟩ := members_find (files.map (·.1)) (files.map (·.2)) ((vint (files.map (·.1)).length).length + (dirBytes (List.replicate (files.map (·.1)).length 0) (files.map (·.1))).length)
      (vint (files.map (·.1)).length ++ dirBytes (dataPos ((vint (files.map (·.1)).length).length +
        (dirBytes (List.replicate (files.map (·.1)).length 0) (files.map (·.1))).length) (files.map (·.2))) (files.map (·.1))) [] hlen (by
      rw [List.length_append, dirBytes_length (files.map (·.1)) (dataPos ((vint (files.map (·.1)).length).length +
        (dirBytes (List.replicate (files.map (·.1)).length 0) (files.map (·.1))).length) (files.map (·.2))) (List.replicate (files.map (·.1)).length 0) (by rw [dataPos_length]; exact hlen) (by simp)]) hdist f.1 f.2 (by
        rw [List.zip_map']
        exact List.mem_map.2 ⟨f, hf, rfl⟩)
    rw [← hpre] at h2 h3
    have hfind : find ⟨B, members ((vint (files.map (·.1)).length).length + (dirBytes (List.replicate (files.map (·.1)).length 0) (files.map (·.1))).length) (files.map (·.1)) (files.map (·.2))⟩ f.1
        = some ((o : Int), (f.2.length : Int)) := by
      unfold find
      dsimp only
      rw [h1]
      rfl
    refine ⟨?_, ?_, ?_⟩
    · unfold cmpdExists; rw [hfind]; rfl
    · unfold cmpdLength; rw [hfind]
    · unfold cmpdOpenInput
      rw [hfind]
      dsimp only
      rw [if_pos (by omega)]
      refine ⟨_, rfl, ?_, ?_⟩
      · intro cmds obs hc
        have := openAll B (o : Int).toNat (f.2.length : Int).toNat
        refine doIns_sub ?_ cmds this.1 this.2 ?_
        · simpa using h2
        · simpa [h3] using hc
      · intro cmds i n obs p hc hl hn
        have := openAll B (o : Int).toNat (f.2.length : Int).toNat
        refine doIns_past ?_ cmds i n this.1 this.2 ?_ hl ?_
        · simpa using h2
        · simpa [h3] using hc
        · simpa using hn
  · intro id hid'
    have hsub : ∀ (ids : List Name) (cs : List (List Byte)) (q : Nat) (e : Name × Int × Int), e ∈ members q ids cs → e.1 ∈ ids := by
      intro ids
      induction ids with
      | nil => intro cs q e he; cases cs <;> cases he
      | cons i ids ih =>
        intro cs q e he
        cases cs with
        | nil => cases he
        | cons c cs =>
          simp only [members, List.mem_cons] at he
          rcases he with rfl | he
          · simp
          · exact List.mem_cons_of_mem _ (ih cs _ e he)
    have hfind : find ⟨B, members ((vint (files.map (·.1)).length).length + (dirBytes (List.replicate (files.map (·.1)).length 0) (files.map (·.1))).length) (files.map (·.1)) (files.map (·.2))⟩ id = none := by
      unfold find
      dsimp only
      rw [List.find?_eq_none.mpr]
      · rfl
      · intro e he
        rw [List.mem_reverse] at he
        have := hsub _ _ _ _ he
        simp only [beq_iff_eq]
        intro e'
        rw [e'] at this
        exact hid' this
    refine ⟨?_, ?_, ?_⟩
    · unfold cmpdExists; rw [hfind]; rfl
    · unfold cmpdLength; rw [hfind]
    · unfold cmpdOpenInput; rw [hfind]

/-- Nothing to pack, and a file that is not there, are errors. -/
theorem c12_errors (d : Disk) (name : Name) : cwClose d name [] = .raise .state ∧ (∀ ids id, id ∈ ids → d.get id = none → ∃ e, cwClose d name ids = .raise e) := by
  refine ⟨rfl, fun ids id hid hg => ?_⟩
  have hw : ∀ (ids : List Name) (st : List Byte × Nat), id ∈ ids → ∃ e, writeData d st ids = .raise e := by
    intro ids
    induction ids with
    | nil => intro st h; cases h
    | cons i ids ih =>
      intro st h
      simp only [writeData, Sis.openInput]
      cases hi : d.get i with
      | none => exact ⟨_, rfl⟩
      | some c =>
        rcases List.mem_cons.1 h with rfl | h
        · rw [hg] at hi; cases hi
        · obtain ⟨e, he⟩ := ih (copyFile c.length st c) h
          simp only [Res.ok_bind]
          rw [he]
          exact ⟨e, rfl⟩
  unfold cwClose
  rw [if_neg (by rintro rfl; cases hid)]
  obtain ⟨e, he⟩ := hw ids _ hid
  dsimp only
  rw [he]
  exact ⟨e, rfl⟩

def packDisk : Disk := [([97], [1, 2, 3]), ([98], []), ([99], List.replicate 1500 7)]

/-- Three files, one empty and one longer than a buffer. -/
example : ∃ d' c, cwClose packDisk [120] [[97], [98], [99]] = .ok d' ∧ cmpdOpen d' [120] = .ok c ∧ cmpdLength c [97] = 3 ∧ cmpdLength c [98] = 0 ∧ cmpdLength c [99] = 1500 ∧
    ∃ s, cmpdOpenInput c [97] = .ok s ∧ doIns [s] [.byte 0, .seek 0 2, .byte 0, .byte 0] = .ok [.byte 1, .done, .byte 3, .eof] := by
  obtain ⟨d', c, h1, h2, -, h3, -⟩ := c12_compound_partial packDisk [120] packDisk (by decide) (by decide) (by decide +kernel) (by decide) (by decide)
    (by intro c h; cases h) (by decide +kernel)
  have ha := h3 ([97], [1, 2, 3]) (List.mem_cons_self ..)
  have hb := h3 ([98], []) (List.mem_cons_of_mem _ (List.mem_cons_self ..))
  have hc := h3 ([99], List.replicate 1500 7) (List.mem_cons_of_mem _ (List.mem_cons_of_mem _ (List.mem_cons_self ..)))
  obtain ⟨s, hs, hobs, -⟩ := ha.2.2
  exact ⟨d', c, h1, h2, ha.2.1, hb.2.1, by rw [hc.2.1, List.length_replicate]; rfl, s, hs, hobs _ _ (by decide)⟩

/-- A longer file of the same name is already there: the last member gets its remaining bytes. -/
theorem c12_stale_file : ∃ d' c, cwClose [([97], [1]), ([120], List.replicate 20 9)] [120] [[97]] = .ok d' ∧ cmpdOpen d' [120] = .ok c ∧ cmpdLength c [97] = 9 := by
  refine ⟨_, _, rfl, rfl, ?_⟩
  decide +kernel

#print axioms c12_compound_partial
#print axioms c12_sub_stream
#print axioms c12_add
#print axioms c12_errors
#print axioms c12_stale_file
end Ferret.Props
