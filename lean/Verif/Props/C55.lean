import Verif.Model.MemPool

/-! C55: blocks of a memory pool never overlap and keep what is written to them. -/

namespace Ferret.Props
open Ferret Ferret.MP

/-- The calls on a pool: allocate a block and fill it, copy memory, a string or the beginning of a
string, write to the block obtained by an earlier call (counted from the last reset), and reset. -/
inductive PoolOp where
  | alloc (data : List Byte)
  | memdup (data : List Byte)
  | strdup (s : List Byte)
  | strndup (str : List Byte) (len : Nat)
  | write (block : Nat) (data : List Byte)
  | reset

/-- The contents of the blocks handed out since the last reset, oldest first. -/
def poolStep (bs : List (List Byte)) : PoolOp → List (List Byte)
  | .alloc data | .memdup data => bs ++ [data]
  | .strdup s => bs ++ [s ++ [0]]
  | .strndup str len => bs ++ [str.take len ++ [0]]
  | .write k data => bs.set k data
  | .reset => []

/-- What a caller must see to: blocks no larger than a chunk, writes within a block. -/
def PoolProper (chunk : Nat) (bs : List (List Byte)) : PoolOp → Prop
  | .alloc data | .memdup data => data.length ≤ chunk
  | .strdup s => s.length + 1 ≤ chunk
  | .strndup str len => len ≤ str.length ∧ len + 1 ≤ chunk
  | .write k data => ∃ b, bs[k]? = some b ∧ data.length = b.length
  | .reset => True

/-- The contents of the blocks after a sequence of calls. -/
def poolBlocks (bs : List (List Byte)) : List PoolOp → List (List Byte)
  | [] => bs
  | op :: ops => poolBlocks (poolStep bs op) ops

/-- Every call of a sequence is proper. -/
def PoolProperRun (chunk : Nat) (bs : List (List Byte)) : List PoolOp → Prop
  | [] => True
  | op :: ops => PoolProper chunk bs op ∧ PoolProperRun chunk (poolStep bs op) ops

/-- A call on the pool by a caller that remembers the pointers it was given. -/
def mpStep (junk : Byte) (mp : Pool) (ps : List Ptr) : PoolOp → Res (Pool × List Ptr)
  | .alloc data =>
    alloc junk mp data.length >>= fun r => poke r.1 r.2 data >>= fun mp => .ok (mp, ps ++ [r.2])
  | .memdup data => memdup junk mp data >>= fun r => .ok (r.1, ps ++ [r.2])
  | .strdup s => strdup junk mp s >>= fun r => .ok (r.1, ps ++ [r.2])
  | .strndup str len => strndup junk mp str len >>= fun r => .ok (r.1, ps ++ [r.2])
  | .write k data => Res.ofOption ps[k]? >>= fun p => poke mp p data >>= fun mp => .ok (mp, ps)
  | .reset => reset mp >>= fun mp => .ok (mp, [])

/-- A sequence of calls. -/
def mpRun (junk : Byte) (mp : Pool) (ps : List Ptr) : List PoolOp → Res (Pool × List Ptr)
  | [] => .ok (mp, ps)
  | op :: ops => mpStep junk mp ps op >>= fun r => mpRun junk r.1 r.2 ops

/-- Two blocks share no byte. -/
def Apart (p : Ptr) (n : Nat) (q : Ptr) (m : Nat) : Prop :=
  p.chunk ≠ q.chunk ∨ p.off + n ≤ q.off ∨ q.off + m ≤ p.off

/-- The state of a pool between calls. -/
structure PoolOk (mp : Pool) : Prop where
  small : mp.chunkSize < 2 ^ 30
  alloc : mp.bufAlloc = mp.mem.length
  below : mp.bufPointer < mp.bufAlloc
  capa : mp.buffers.length = mp.bufCapa
  capa0 : 0 < mp.bufCapa
  room : mp.bufAlloc ≤ mp.bufCapa
  bufs : ∀ i, i < mp.bufAlloc → mp.buffers[i]? = some (some i)
  curr : mp.curr = mp.bufPointer
  ptr : mp.pointer ≤ mp.chunkSize
  chunks : ∀ (i : Nat) (c : List Byte), mp.mem[i]? = some c → c.length = mp.chunkSize

/-- The blocks `ps` of the pool hold `bs`. -/
structure Blocks (mp : Pool) (ps : List Ptr) (bs : List (List Byte)) : Prop where
  len : ps.length = bs.length
  reads : ∀ (i : Nat) (p : Ptr) (b : List Byte), ps[i]? = some p → bs[i]? = some b → peek mp p b.length = .ok b
  inside : ∀ (i : Nat) (p : Ptr) (b : List Byte), ps[i]? = some p → bs[i]? = some b →
    p.chunk < mp.bufPointer ∨ (p.chunk = mp.bufPointer ∧ p.off + b.length ≤ mp.pointer)
  apart : ∀ (i j : Nat) (p q : Ptr) (b d : List Byte), i < j → ps[i]? = some p → ps[j]? = some q →
    bs[i]? = some b → bs[j]? = some d → Apart p b.length q d.length

theorem peek_of_mem {mp mp' : Pool} (p : Ptr) (n : Nat) (h : mp'.mem[p.chunk]? = mp.mem[p.chunk]?) :
    peek mp' p n = peek mp p n := by
  unfold peek
  rw [h]

/-- Reading back what was written. -/
theorem poke_peek {mp : Pool} (h : PoolOk mp) (p : Ptr) (data : List Byte) (hc : p.chunk < mp.bufAlloc)
    (hl : p.off + data.length ≤ mp.chunkSize) :
    ∃ mp', poke mp p data = .ok mp' ∧ PoolOk mp' ∧ mp'.bufPointer = mp.bufPointer ∧
      mp'.pointer = mp.pointer ∧ mp'.chunkSize = mp.chunkSize ∧ mp'.bufAlloc = mp.bufAlloc ∧
      peek mp' p data.length = .ok data ∧
      ∀ q n b, Apart p data.length q n → peek mp q n = .ok b → peek mp' q n = .ok b := by
  obtain ⟨c, hcc⟩ : ∃ c, mp.mem[p.chunk]? = some c :=
    ⟨_, List.getElem?_eq_getElem (by rw [← h.alloc]; exact hc)⟩
  have hcl := h.chunks _ _ hcc
  unfold poke
  rw [hcc]
  simp only [Res.ofOption, Res.ok_bind]
  rw [if_pos (by omega)]
  have hlt : p.chunk < mp.mem.length := by rw [← h.alloc]; exact hc
  refine ⟨_, rfl, ⟨h.small, by simpa using h.alloc, h.below, h.capa, h.capa0, h.room, h.bufs, h.curr, h.ptr, ?_⟩,
    rfl, rfl, rfl, rfl, ?_, ?_⟩
  · intro i c' hi
    simp only at hi ⊢
    rw [List.getElem?_set] at hi
    split at hi
    · have := Option.some.inj hi
      rw [← this]
      simp
      omega
    · exact h.chunks _ _ hi
  · unfold peek
    simp only
    rw [List.getElem?_set_self hlt]
    simp only [Res.ofOption, Res.ok_bind]
    rw [if_pos (by simp; omega)]
    congr 1
    rw [List.append_assoc, List.drop_left' (by simp; omega), List.take_left' rfl]
  · intro q n b hap hq
    by_cases hne : p.chunk = q.chunk
    · unfold peek at hq ⊢
      simp only
      rw [← hne] at hq ⊢
      rw [List.getElem?_set_self hlt]
      rw [hcc] at hq
      simp only [Res.ofOption, Res.ok_bind] at hq ⊢
      split at hq
      · rename_i hqn
        rw [if_pos (by simp; omega)]
        rw [← Res.ok.inj hq]
        congr 1
        apply List.ext_getElem?
        intro k
        rw [List.getElem?_take, List.getElem?_take]
        split
        · rename_i hk
          rw [List.getElem?_drop, List.getElem?_drop]
          rcases hap with h1 | h1 | h1
          · exact absurd hne h1
          · rw [List.getElem?_append_right (by simp; omega), List.getElem?_drop]
            simp
            congr 1
            omega
          · rw [List.append_assoc, List.getElem?_append_left (by simp; omega), List.getElem?_take,
              if_pos (by omega)]
        · rfl
      · cases hq
    · rw [peek_of_mem q n (mp := mp)]
      · exact hq
      · simp only
        rw [List.getElem?_set_ne hne]

/-- Allocation gives a block inside a chunk, above the blocks given so far. -/
theorem alloc_spec (junk : Byte) {mp : Pool} (h : PoolOk mp) (n : Nat) (hn : n ≤ mp.chunkSize) :
    ∃ mp' p, alloc junk mp n = .ok (mp', p) ∧ PoolOk mp' ∧ mp'.chunkSize = mp.chunkSize ∧
      p.chunk = mp'.bufPointer ∧ p.off + n = mp'.pointer ∧
      (mp'.bufPointer = mp.bufPointer ∧ p.off = mp.pointer ∨ mp'.bufPointer = mp.bufPointer + 1) ∧
      ∀ q m b, peek mp q m = .ok b → peek mp' q m = .ok b := by
  have hs := h.small
  have hp := h.ptr
  unfold alloc
  dsimp only
  rw [if_pos (by omega)]
  by_cases hfit : mp.pointer + n > mp.chunkSize
  · rw [if_pos hfit]
    by_cases hnew : mp.bufPointer + 1 ≥ mp.bufAlloc
    · rw [if_pos hnew]
      have hbel := h.below
      have hroom := h.room
      have hcapa := h.capa
      generalize hmp2 : (if mp.bufAlloc + 1 ≥ mp.bufCapa then
            { mp with bufCapa := mp.bufCapa * 2, buffers := mp.buffers ++ List.replicate mp.bufCapa none }
          else mp) = mp2
      have e : mp2.mem = mp.mem ∧ mp2.chunkSize = mp.chunkSize ∧ mp2.pointer = mp.pointer ∧
          mp2.buffers.length = mp2.bufCapa ∧ 0 < mp2.bufCapa ∧ mp.bufAlloc + 1 ≤ mp2.bufCapa ∧
          ∀ i, i < mp.bufAlloc → mp2.buffers[i]? = some (some i) := by
        rw [← hmp2]
        split
        · refine ⟨rfl, rfl, rfl, by simp; omega, by simp; exact h.capa0, by simp only; have := h.capa0; omega, fun i hi => ?_⟩
          simp only
          rw [List.getElem?_append_left (by omega)]
          exact h.bufs i hi
        · exact ⟨rfl, rfl, rfl, h.capa, h.capa0, by omega, h.bufs⟩
      obtain ⟨e1, e2, e3, e4, e5, e6, e7⟩ := e
      rw [if_pos (by omega)]
      simp only [Res.ok_bind, malloc, e1, e2]
      have hba : mp.bufPointer + 1 = mp.bufAlloc := by omega
      rw [List.getElem?_set_self (by omega)]
      simp only [Res.ofOption, Res.ok_bind]
      refine ⟨_, _, rfl, ?_, rfl, ?_, ?_, Or.inr rfl, ?_⟩
      · refine ⟨hs, ?_, ?_, ?_, e5, e6, ?_, ?_, hn, ?_⟩
        · simp [h.alloc]
        · simp only; omega
        · simp [e4]
        · intro i hi
          simp only at hi ⊢
          rw [List.getElem?_set]
          split
          · rename_i hii
            rw [if_pos (by omega), ← hii, ← h.alloc, hba]
          · exact e7 i (by omega)
        · simp only
          rw [← h.alloc]
          omega
        · intro i c hi
          simp only at hi ⊢
          rw [List.getElem?_append] at hi
          split at hi
          · exact h.chunks _ _ hi
          · rename_i hlt
            cases hk : i - mp.mem.length with
            | zero =>
              rw [hk] at hi
              rw [← Option.some.inj hi]
              simp
            | succ k => rw [hk] at hi; simp at hi
      · simp only
        rw [← h.alloc]
        omega
      · simp
      · intro q m b hq
        rw [← hq]
        apply peek_of_mem
        simp only
        have hc : q.chunk < mp.mem.length := by
          unfold peek at hq
          cases hm : mp.mem[q.chunk]? with
          | none => rw [hm] at hq; cases hq
          | some c =>
            rw [List.getElem?_eq_some_iff] at hm
            exact hm.1
        rw [List.getElem?_append_left hc]
    · rw [if_neg hnew, Res.ok_bind, h.bufs _ (by omega)]
      simp only [Res.ofOption, Res.ok_bind]
      refine ⟨_, _, rfl, ?_, rfl, rfl, by simp, Or.inr rfl, ?_⟩
      · exact ⟨hs, h.alloc, by simp only; omega, h.capa, h.capa0, h.room, h.bufs, rfl, hn, h.chunks⟩
      · intro q m b hq
        exact hq
  · rw [if_neg hfit]
    refine ⟨_, _, rfl, ?_, rfl, h.curr, rfl, Or.inl ⟨rfl, rfl⟩, ?_⟩
    · exact ⟨hs, h.alloc, h.below, h.capa, h.capa0, h.room, h.bufs, h.curr, by simp only; omega, h.chunks⟩
    · intro q m b hq
      exact hq

/-- Allocating a block and writing `data` to it adds it to the blocks. -/
theorem addBlock_spec (junk : Byte) {mp : Pool} (h : PoolOk mp) {ps : List Ptr} {bs : List (List Byte)}
    (hb : Blocks mp ps bs) (data : List Byte) (hn : data.length ≤ mp.chunkSize) :
    ∃ mp1 p mp2, alloc junk mp data.length = .ok (mp1, p) ∧ poke mp1 p data = .ok mp2 ∧ PoolOk mp2 ∧
      mp2.chunkSize = mp.chunkSize ∧ Blocks mp2 (ps ++ [p]) (bs ++ [data]) := by
  obtain ⟨mp1, p, ha, h1, hcs, hpc, hpo, hnext, hkeep⟩ := alloc_spec junk h data.length hn
  obtain ⟨mp2, hp2, h2, e1, e2, e3, e4, hr, hother⟩ := poke_peek h1 p data (by have := h1.below; omega)
    (by have := h1.ptr; omega)
  refine ⟨mp1, p, mp2, ha, hp2, h2, by omega, ?_⟩
  -- the new block is apart from every older one
  have hap : ∀ (i : Nat) (q : Ptr) (b : List Byte), ps[i]? = some q → bs[i]? = some b →
      Apart p data.length q b.length := by
    intro i q b hq hbq
    rcases hb.inside i q b hq hbq with hlt | ⟨heq, hle⟩
    · left
      rcases hnext with ⟨e, _⟩ | e <;> omega
    · rcases hnext with ⟨e, eo⟩ | e
      · right; right; omega
      · left; omega
  have split : ∀ (i : Nat) (q : Ptr) (b : List Byte), (ps ++ [p])[i]? = some q → (bs ++ [data])[i]? = some b →
      (ps[i]? = some q ∧ bs[i]? = some b) ∨ (i = ps.length ∧ q = p ∧ b = data) := by
    intro i q b hq hbq
    rw [List.getElem?_append] at hq hbq
    split at hq
    · rename_i hi
      rw [if_pos (by rw [← hb.len]; exact hi)] at hbq
      exact Or.inl ⟨hq, hbq⟩
    · rename_i hi
      rw [if_neg (by rw [← hb.len]; exact hi)] at hbq
      cases hk : i - ps.length with
      | zero =>
        rw [hk] at hq
        rw [show i - bs.length = 0 by rw [← hb.len]; exact hk] at hbq
        exact Or.inr ⟨by omega, (Option.some.inj hq).symm, (Option.some.inj hbq).symm⟩
      | succ k => rw [hk] at hq; simp at hq
  refine ⟨by simp [hb.len], ?_, ?_, ?_⟩
  · intro i q b hq hbq
    rcases split i q b hq hbq with ⟨hq, hbq⟩ | ⟨_, rfl, rfl⟩
    · exact hother q _ b (hap i q b hq hbq) (hkeep q _ b (hb.reads i q b hq hbq))
    · exact hr
  · intro i q b hq hbq
    rcases split i q b hq hbq with ⟨hq, hbq⟩ | ⟨_, rfl, rfl⟩
    · rcases hb.inside i q b hq hbq with hlt | ⟨heq, hle⟩
      · left
        rcases hnext with ⟨e, _⟩ | e <;> omega
      · rcases hnext with ⟨e, eo⟩ | e
        · right; omega
        · left; omega
    · right; omega
  · intro i j q r b d hij hq hr' hbq hdr
    rcases split i q b hq hbq with ⟨hq, hbq⟩ | ⟨hi, rfl, rfl⟩
    · rcases split j r d hr' hdr with ⟨hr', hdr⟩ | ⟨hj, rfl, rfl⟩
      · exact hb.apart i j q r b d hij hq hr' hbq hdr
      · rcases hap i q b ‹_› ‹_› with h | h | h
        · exact Or.inl (Ne.symm h)
        · exact Or.inr (Or.inr h)
        · exact Or.inr (Or.inl h)
    · rcases split j r d hr' hdr with ⟨hr', hdr⟩ | ⟨hj, rfl, rfl⟩
      · rw [List.getElem?_eq_some_iff] at hr'
        have := hr'.1
        omega
      · omega

theorem poke_append {mp mp' mp'' : Pool} {p : Ptr} {a b : List Byte} (h1 : poke mp p a = .ok mp')
    (h2 : poke mp' ⟨p.chunk, p.off + a.length⟩ b = .ok mp'') : poke mp p (a ++ b) = .ok mp'' := by
  unfold poke at *
  cases hm : mp.mem[p.chunk]? with
  | none => rw [hm] at h1; cases h1
  | some c =>
    rw [hm] at h1
    simp only [Res.ofOption, Res.ok_bind] at h1
    split at h1
    · rename_i hl
      have e := Res.ok.inj h1
      subst e
      have hlt : p.chunk < mp.mem.length := by rw [List.getElem?_eq_some_iff] at hm; exact hm.1
      simp only at h2
      rw [List.getElem?_set_self hlt] at h2
      simp only [Res.ofOption, Res.ok_bind] at h2 ⊢
      split at h2
      · rename_i hl2
        simp only [List.length_append, List.length_take, List.length_drop] at hl2
        rw [if_pos (by simp only [List.length_append]; omega), ← Res.ok.inj h2]
        simp only [List.set_set]
        congr 3
        rw [List.take_left' (by simp; omega)]
        rw [List.append_assoc, List.append_assoc, List.append_assoc, List.append_assoc]
        congr 3
        rw [List.drop_append, List.drop_eq_nil_of_le (as := List.take p.off c ++ a) (by simp; omega),
          List.nil_append, List.drop_drop]
        congr 1
        simp
        omega
      · cases h2
    · cases h1

/-- Writing to a block changes that block alone. -/
theorem write_spec {mp : Pool} (h : PoolOk mp) {ps : List Ptr} {bs : List (List Byte)}
    (hb : Blocks mp ps bs) (k : Nat) (b data : List Byte) (hk : bs[k]? = some b) (hl : data.length = b.length) :
    ∃ p mp', ps[k]? = some p ∧ poke mp p data = .ok mp' ∧ PoolOk mp' ∧ mp'.chunkSize = mp.chunkSize ∧
      Blocks mp' ps (bs.set k data) := by
  have hkl : k < bs.length := by rw [List.getElem?_eq_some_iff] at hk; exact hk.1
  obtain ⟨p, hp⟩ : ∃ p, ps[k]? = some p := ⟨_, List.getElem?_eq_getElem (by rw [hb.len]; exact hkl)⟩
  have hin := hb.inside k p b hp hk
  have hread := hb.reads k p b hp hk
  have hfit : p.chunk < mp.bufAlloc ∧ p.off + b.length ≤ mp.chunkSize := by
    unfold peek at hread
    cases hm : mp.mem[p.chunk]? with
    | none => rw [hm] at hread; cases hread
    | some c =>
      rw [hm] at hread
      simp only [Res.ofOption, Res.ok_bind] at hread
      split at hread
      · have hc := h.chunks _ _ hm
        rw [List.getElem?_eq_some_iff] at hm
        have := hm.1
        have := h.alloc
        omega
      · cases hread
  obtain ⟨mp', hpk, h', e1, e2, e3, e4, hr, hother⟩ := poke_peek h p data hfit.1 (by omega)
  refine ⟨p, mp', hp, hpk, h', e3, by simp [hb.len], ?_, ?_, ?_⟩
  · intro i q d hq hd
    rw [List.getElem?_set] at hd
    split at hd
    · rename_i hik
      subst hik
      rw [hp] at hq
      rw [← Option.some.inj hd, ← Option.some.inj hq]
      exact hr
    · rename_i hik
      apply hother q _ d _ (hb.reads i q d hq hd)
      rw [hl]
      rcases Nat.lt_or_gt_of_ne hik with hlt | hlt
      · exact hb.apart k i p q b d hlt hp hq hk hd
      · rcases hb.apart i k q p d b hlt hq hp hd hk with h | h | h
        · exact Or.inl (Ne.symm h)
        · exact Or.inr (Or.inr h)
        · exact Or.inr (Or.inl h)
  · intro i q d hq hd
    rw [e1, e2]
    rw [List.getElem?_set] at hd
    split at hd
    · rename_i hik
      subst hik
      rw [← Option.some.inj hd, hl]
      exact hb.inside _ q b hq hk
    · exact hb.inside i q d hq hd
  · intro i j q r d e hij hq hr' hd he
    have conv : ∀ (i : Nat) (d : List Byte), (bs.set k data)[i]? = some d → ∃ d', bs[i]? = some d' ∧ d'.length = d.length := by
      intro i d hd
      rw [List.getElem?_set] at hd
      split at hd
      · rename_i hik
        subst hik
        exact ⟨b, ‹_›, by rw [← Option.some.inj hd, hl]⟩
      · exact ⟨d, hd, rfl⟩
    obtain ⟨d', hd', ed⟩ := conv i d hd
    obtain ⟨e', he', ee⟩ := conv j e he
    rw [← ed, ← ee]
    exact hb.apart i j q r d' e' hij hq hr' hd' he'

/-- Every proper call keeps the blocks and what they hold. -/
theorem mpStep_spec (junk : Byte) {mp : Pool} (h : PoolOk mp) {ps : List Ptr} {bs : List (List Byte)}
    (hb : Blocks mp ps bs) (op : PoolOp) (hp : PoolProper mp.chunkSize bs op) :
    ∃ mp' ps', mpStep junk mp ps op = .ok (mp', ps') ∧ PoolOk mp' ∧ mp'.chunkSize = mp.chunkSize ∧
      Blocks mp' ps' (poolStep bs op) := by
  cases op with
  | alloc data =>
    obtain ⟨mp1, p, mp2, h1, h2, h3, h4, h5⟩ := addBlock_spec junk h hb data hp
    simp only [mpStep, h1, Res.ok_bind, h2]
    exact ⟨_, _, rfl, h3, h4, h5⟩
  | memdup data =>
    obtain ⟨mp1, p, mp2, h1, h2, h3, h4, h5⟩ := addBlock_spec junk h hb data hp
    simp only [mpStep, memdup, h1, Res.ok_bind, h2]
    exact ⟨_, _, rfl, h3, h4, h5⟩
  | strdup s =>
    obtain ⟨mp1, p, mp2, h1, h2, h3, h4, h5⟩ := addBlock_spec junk h hb (s ++ [0]) (by simpa [PoolProper] using hp)
    have hl : (s ++ [(0 : Byte)]).length = s.length + 1 := by simp
    simp only [mpStep, strdup]
    rw [hl] at h1
    rw [← hl, List.take_length, hl, h1, Res.ok_bind, h2, Res.ok_bind, Res.ok_bind]
    exact ⟨_, _, rfl, h3, h4, h5⟩
  | strndup str len =>
    obtain ⟨hp1, hp2⟩ := hp
    obtain ⟨mp1, p, mp2, h1, h2, h3, h4, h5⟩ := addBlock_spec junk h hb (str.take len ++ [0]) (by simp; omega)
    have hl : (str.take len ++ [(0 : Byte)]).length = len + 1 := by simp; omega
    rw [hl] at h1
    simp only [mpStep, strndup, h1, Res.ok_bind]
    rw [if_pos hp1]
    obtain ⟨mp1', p', ha, g1, gcs, gpc, gpo, _, _⟩ := alloc_spec junk h (len + 1) (by omega)
    rw [h1] at ha
    obtain ⟨rfl, rfl⟩ := Prod.mk.inj (Res.ok.inj ha)
    have hlt : (str.take len).length = len := by simp; omega
    obtain ⟨m1, q1, q2, q3, q4, q5, q6, _, _⟩ := poke_peek g1 p (str.take len) (by have := g1.below; omega)
      (by have := g1.ptr; omega)
    obtain ⟨m2, r1, _⟩ := poke_peek q2 ⟨p.chunk, p.off + (str.take len).length⟩ [0]
      (by have := g1.below; simp only; omega) (by have := g1.ptr; simp only [List.length_cons, List.length_nil]; omega)
    have hh := poke_append q1 r1
    rw [h2] at hh
    rw [hlt] at r1
    rw [q1, Res.ok_bind, r1, Res.ok_bind, Res.ok_bind]
    refine ⟨_, _, rfl, ?_⟩
    rw [← Res.ok.inj hh]
    exact ⟨h3, h4, h5⟩
  | write k data =>
    obtain ⟨b, hk, hl⟩ := hp
    obtain ⟨p, mp', h1, h2, h3, h4, h5⟩ := write_spec h hb k b data hk hl
    simp only [mpStep, h1, Res.ofOption, Res.ok_bind, h2]
    exact ⟨_, _, rfl, h3, h4, h5⟩
  | reset =>
    have hpos : 0 < mp.bufAlloc := by have := h.below; omega
    simp only [mpStep, reset, h.bufs 0 hpos, Res.ofOption, Res.ok_bind]
    refine ⟨_, _, rfl, ⟨h.small, h.alloc, hpos, h.capa, h.capa0, h.room, h.bufs, rfl, Nat.zero_le _, h.chunks⟩, rfl, rfl, ?_, ?_, ?_⟩
    · intro i p b hp; cases hp
    · intro i p b hp; cases hp
    · intro i j p q b d _ hp; cases hp

theorem mpRun_spec (junk : Byte) : ∀ (ops : List PoolOp) (mp : Pool) (ps : List Ptr) (bs : List (List Byte)),
    PoolOk mp → Blocks mp ps bs → PoolProperRun mp.chunkSize bs ops →
    ∃ mp' ps', mpRun junk mp ps ops = .ok (mp', ps') ∧ PoolOk mp' ∧ mp'.chunkSize = mp.chunkSize ∧
      Blocks mp' ps' (poolBlocks bs ops) := by
  intro ops
  induction ops with
  | nil =>
    intro mp ps bs h hb _
    exact ⟨mp, ps, rfl, h, rfl, hb⟩
  | cons op ops ih =>
    intro mp ps bs h hb hp
    obtain ⟨m1, p1, e1, h1, hc, hb1⟩ := mpStep_spec junk h hb op hp.1
    obtain ⟨m2, p2, e2, h2, hc2, hb2⟩ := ih m1 p1 _ h1 hb1 (by rw [hc]; exact hp.2)
    exact ⟨m2, p2, by simp only [mpRun, e1, Res.ok_bind, e2], h2, by omega, hb2⟩

theorem new_poolOk (junk : Byte) (chunk capa : Nat) (hs : chunk < 2 ^ 30) (hc : 0 < capa) :
    ∃ mp, newCapa junk chunk capa = .ok mp ∧ PoolOk mp ∧ mp.chunkSize = chunk := by
  unfold newCapa malloc
  dsimp only
  rw [if_pos hc]
  refine ⟨_, rfl, ⟨hs, rfl, by simp, by simp, hc, by simp; omega, ?_, rfl, Nat.zero_le _, ?_⟩, rfl⟩
  · intro i hi
    simp only at hi ⊢
    have : i = 0 := by omega
    subst this
    rw [List.getElem?_set_self (by simp; omega)]
    rfl
  · intro i c hi
    cases i with
    | zero =>
      simp only [List.nil_append, List.getElem?_cons_zero] at hi
      rw [← Option.some.inj hi]
      simp
    | succ i => simp at hi

/-- **C55 (partial).** After any sequence of requests of at most a chunk each, the blocks handed out
since the last reset lie inside chunks that were allocated, no two share a byte, and each holds what
was last written to it. Missing: requests larger than a chunk, see below. -/
theorem c55_pool_partial (junk : Byte) (chunk capa : Nat) (hs : chunk < 2 ^ 30) (hc : 0 < capa)
    (ops : List PoolOp) (hp : PoolProperRun chunk [] ops) :
    ∃ mp0 mp ps, newCapa junk chunk capa = .ok mp0 ∧ mpRun junk mp0 [] ops = .ok (mp, ps) ∧
      ps.length = (poolBlocks [] ops).length ∧
      (∀ (i : Nat) (p : Ptr) (b : List Byte), ps[i]? = some p → (poolBlocks [] ops)[i]? = some b →
        p.chunk < mp.mem.length ∧ p.off + b.length ≤ chunk ∧ peek mp p b.length = .ok b) ∧
      ∀ (i j : Nat) (p q : Ptr) (b d : List Byte), i < j → ps[i]? = some p → ps[j]? = some q →
        (poolBlocks [] ops)[i]? = some b → (poolBlocks [] ops)[j]? = some d →
        Apart p b.length q d.length := by
  obtain ⟨mp0, h0, hok, hcs⟩ := new_poolOk junk chunk capa hs hc
  obtain ⟨mp, ps, hr, hok', hcs', hb⟩ := mpRun_spec junk ops mp0 [] [] hok
    ⟨rfl, (fun _ _ _ h => nomatch h), (fun _ _ _ h => nomatch h), (fun _ _ _ _ _ _ _ h => nomatch h)⟩ (by rw [hcs]; exact hp)
  refine ⟨mp0, mp, ps, h0, hr, hb.len, ?_, hb.apart⟩
  intro i p b hpi hbi
  have hread := hb.reads i p b hpi hbi
  refine ⟨?_, ?_, hread⟩
  all_goals
    unfold peek at hread
    cases hm : mp.mem[p.chunk]? with
    | none => rw [hm] at hread; cases hread
    | some c =>
      rw [hm] at hread
      simp only [Res.ofOption, Res.ok_bind] at hread
      split at hread
      · have hc := hok'.chunks _ _ hm
        rw [List.getElem?_eq_some_iff] at hm
        have := hm.1
        omega
      · cases hread

/-- Chunks of eight bytes: the third and fourth block go to other chunks, the second is
rewritten. -/
example : ∃ mp0 mp ps, newCapa 7 8 1 = .ok mp0 ∧
    mpRun 7 mp0 [] [.strdup [1, 2], .memdup [3, 4, 5], .alloc [6, 7, 8, 9], .reset, .strdup [1, 2], .memdup [3, 4, 5],
      .alloc [6, 7, 8, 9], .strndup [10, 11, 12, 13, 14, 15] 5, .write 1 [0, 0, 1]] = .ok (mp, ps) ∧
    ps = [⟨0, 0⟩, ⟨0, 3⟩, ⟨1, 0⟩, ⟨2, 0⟩] ∧ peek mp ⟨0, 3⟩ 3 = .ok [0, 0, 1] ∧
    peek mp ⟨2, 0⟩ 6 = .ok [10, 11, 12, 13, 14, 0] ∧
    PoolProperRun 8 [] [.strdup [1, 2], .memdup [3, 4, 5], .alloc [6, 7, 8, 9], .reset, .strdup [1, 2], .memdup [3, 4, 5],
      .alloc [6, 7, 8, 9], .strndup [10, 11, 12, 13, 14, 15] 5, .write 1 [0, 0, 1]] := by
  refine ⟨_, _, _, rfl, rfl, by decide, rfl, rfl, ?_⟩
  simp [PoolProperRun, PoolProper, poolStep]

/-- **C55 fails: a request larger than a chunk** gets a block that ends outside its chunk, in every
state of the pool; writing it is undefined. -/
theorem c55_large_wrong (junk : Byte) (mp : Pool) (h : PoolOk mp) (data : List Byte)
    (hl : mp.chunkSize < data.length) (hn : data.length < 2 ^ 30) : memdup junk mp data = .ub := by
  have hs := h.small
  have hpt := h.ptr
  have hsub : ∀ (m : Pool) (p : Ptr), (∀ (i : Nat) (c : List Byte), m.mem[i]? = some c → c.length = mp.chunkSize) →
      poke m p data = .ub := by
    intro m p hm
    unfold poke
    cases hc : m.mem[p.chunk]? with
    | none => rfl
    | some c =>
      have := hm _ _ hc
      simp only [Res.ofOption, Res.ok_bind]
      rw [if_neg (by omega)]
  unfold memdup
  cases ha : alloc junk mp data.length with
  | ub => rfl
  | raise e =>
    exfalso
    unfold alloc at ha
    dsimp only at ha
    rw [if_pos (by omega), if_pos (by omega)] at ha
    have nr : ∀ {α : Type} (o : Option α) (e : Err), Res.ofOption o ≠ .raise e := by
      intro α o e; cases o <;> simp
    have nb : ∀ {α β : Type} (r : Res α) (f : α → Res β), (∀ e, r ≠ .raise e) → (∀ a e, f a ≠ .raise e) →
        ∀ e, (r >>= f) ≠ .raise e := by
      intro α β r f h1 h2 e
      cases r with
      | ok a => exact h2 a e
      | raise e' => exact absurd rfl (h1 e')
      | ub => simp
    revert ha
    apply nb
    · intro e
      split
      · split <;> (split <;> simp)
      · simp
    · intro a e
      apply nb
      · exact nr _
      · intro b e
        apply nb
        · exact nr _
        · simp
  | ok r =>
    rw [Res.ok_bind, hsub, Res.ub_bind]
    intro i c hi
    unfold alloc at ha
    dsimp only at ha
    rw [if_pos (by omega), if_pos (by omega)] at ha
    rw [Res.bind_eq_ok] at ha
    obtain ⟨m1, hm1, ha⟩ := ha
    rw [Res.bind_eq_ok] at ha
    obtain ⟨x, _, ha⟩ := ha
    rw [Res.bind_eq_ok] at ha
    obtain ⟨y, _, ha⟩ := ha
    rw [← Res.ok.inj ha] at hi
    simp only at hi
    have hkeep : ∀ (i : Nat) (c : List Byte), m1.mem[i]? = some c → c.length = mp.chunkSize := by
      split at hm1
      · generalize hmp2 : (if mp.bufAlloc + 1 ≥ mp.bufCapa then
            { mp with bufCapa := mp.bufCapa * 2, buffers := mp.buffers ++ List.replicate mp.bufCapa none }
          else mp) = mp2 at hm1
        have e : mp2.mem = mp.mem ∧ mp2.chunkSize = mp.chunkSize := by
          rw [← hmp2]; split <;> exact ⟨rfl, rfl⟩
        split at hm1
        · rw [← Res.ok.inj hm1]
          intro i c hi
          simp only [malloc, e.1, e.2] at hi
          rw [List.getElem?_append] at hi
          split at hi
          · exact h.chunks _ _ hi
          · cases hk : i - mp.mem.length with
            | zero => rw [hk] at hi; rw [← Option.some.inj hi]; simp
            | succ k => rw [hk] at hi; simp at hi
        · cases hm1
      · rw [← Res.ok.inj hm1]
        exact h.chunks
    exact hkeep i c hi

/-- A term of nine bytes in a pool of eight-byte chunks. -/
example : (newCapa 0 8 1 >>= fun mp => memdup 0 mp [1, 2, 3, 4, 5, 6, 7, 8, 9]) = .ub := rfl

#print axioms c55_pool_partial
#print axioms c55_large_wrong
end Ferret.Props
