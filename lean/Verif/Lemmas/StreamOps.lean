import Verif.Lemmas.Stream

namespace Ferret.Store

/-! ### Output -/

def OutFile.content : OutFile → List Byte
  | .ram rf _ => rf.content
  | .fs data _ => data

def OutFile.ptr : OutFile → Nat
  | .ram _ p => p
  | .fs _ p => p

def OutFile.WF : OutFile → Prop
  | .ram rf _ => rf.WF
  | .fs _ _ => True

/-- The stream stands for a file holding `data`, at position `p`. -/
structure OutOK (o : OutS) (data : List Byte) (p : Nat) : Prop where
  wf : o.file.WF
  buf : o.buf.length ≤ bufSize
  ptr : o.file.ptr = o.start
  start : o.start ≤ o.file.content.length
  pos : p = o.start + o.buf.length
  data : data = writeAt o.file.content o.start o.buf

theorem OutOK.le {o : OutS} {data : List Byte} {p : Nat} (h : OutOK o data p) : p ≤ data.length := by
  rw [h.data, h.pos, writeAt_length _ _ _ h.start]; omega

theorem flushI_spec (junk : Byte) {f : OutFile} (hwf : f.WF) (hp : f.ptr ≤ f.content.length) (src : List Byte) (hs : src.length ≤ bufSize) :
    ∃ f', flushI junk f src = .ok f' ∧ f'.WF ∧ f'.content = writeAt f.content f.ptr src ∧ f'.ptr = f.ptr + src.length := by
  cases f with
  | ram rf p =>
    simp only [OutFile.WF, OutFile.content, OutFile.ptr] at *
    rw [content_length hwf] at hp
    obtain ⟨rf', h1, h2, h3, -⟩ := ramoFlush_spec junk hwf p src hp hs
    refine ⟨.ram rf' (p + src.length), ?_, h2, h3, rfl⟩
    simp only [flushI]; rw [h1, Res.ok_bind]
  | fs data off =>
    simp only [OutFile.WF, OutFile.content, OutFile.ptr] at *
    refine ⟨_, rfl, trivial, ?_, rfl⟩
    rw [show off - data.length = 0 by omega]; simp [OutFile.content]

theorem osFlush_spec (junk : Byte) {o : OutS} {data : List Byte} {p : Nat} (h : OutOK o data p) :
    ∃ o', osFlush junk o = .ok o' ∧ OutOK o' data p ∧ o'.buf = [] ∧ o'.file.content = data := by
  obtain ⟨f, h1, h2, h3, h4⟩ := flushI_spec junk h.wf (by rw [h.ptr]; exact h.start) o.buf h.buf
  rw [h.ptr] at h3 h4
  refine ⟨⟨[], o.start + o.buf.length, f⟩, ?_, ⟨h2, by simp, h4, ?_, ?_, ?_⟩, rfl, ?_⟩
  · unfold osFlush; rw [h1, Res.ok_bind]
  · rw [h3, writeAt_length _ _ _ h.start]; simp only; omega
  · simp [h.pos]
  · simp only [writeAt_nil]; rw [h3, h.data]
  · simp only; rw [h3, h.data]

theorem osSeek_spec (junk : Byte) {o : OutS} {data : List Byte} {p : Nat} (h : OutOK o data p) (q : Nat) (hq : q ≤ data.length) :
    ∃ o', osSeek junk o q = .ok o' ∧ OutOK o' data q ∧ o'.buf = [] := by
  obtain ⟨o1, h1, h2, h3, h4⟩ := osFlush_spec junk h
  refine ⟨⟨[], q, seekI o1.file q⟩, ?_, ?_, rfl⟩
  · unfold osSeek; rw [h1, Res.ok_bind]
    cases o1; simp only at h3; subst h3; rfl
  · have hc : (seekI o1.file q).content = o1.file.content := by cases o1.file <;> rfl
    refine ⟨?_, by simp, ?_, ?_, ?_, ?_⟩
    · have := h2.wf; cases hf : o1.file <;> rw [hf] at this <;> exact this
    · simp only; cases o1.file <;> rfl
    · simp only; rw [hc, h4]; exact hq
    · simp
    · simp only [writeAt_nil]; rw [hc, h4]

/-- The operation writes these bytes at the position of the stream. -/
def Emits (op : OutS → Res OutS) (bs : List Byte) : Prop :=
  ∀ o data p, OutOK o data p → ∃ o', op o = .ok o' ∧ OutOK o' (writeAt data p bs) (p + bs.length)

theorem Emits.bind {f g : OutS → Res OutS} {a b : List Byte} (hf : Emits f a) (hg : Emits g b) : Emits (fun o => f o >>= g) (a ++ b) := by
  intro o data p h
  obtain ⟨o1, h1, h2⟩ := hf o data p h
  obtain ⟨o2, h3, h4⟩ := hg o1 _ _ h2
  refine ⟨o2, by simp only; rw [h1, Res.ok_bind, h3], ?_⟩
  rw [writeAt_writeAt _ _ _ _ h.le] at h4
  rw [List.length_append, ← Nat.add_assoc]
  exact h4

theorem Emits.ok : Emits (fun o => .ok o) [] := by
  intro o data p h
  exact ⟨o, rfl, by rw [writeAt_nil]; exact h⟩

theorem writeByte_spec {o : OutS} {data : List Byte} {p : Nat} (h : OutOK o data p) (b : Byte) (hb : o.buf.length < bufSize) :
    ∃ o', writeByte o b = .ok o' ∧ OutOK o' (writeAt data p [b]) (p + 1) ∧ o'.buf.length = o.buf.length + 1 := by
  refine ⟨{ o with buf := o.buf ++ [b] }, ?_, ⟨h.wf, ?_, h.ptr, h.start, ?_, ?_⟩, by simp⟩
  · unfold writeByte; rw [if_pos hb]
  · simp only [List.length_append, List.length_singleton]; omega
  · simp only [List.length_append, List.length_singleton]; have := h.pos; omega
  · simp only
    rw [← writeAt_writeAt _ _ _ _ h.start, ← h.data, ← h.pos]

theorem emits_byte (junk b : Byte) : Emits (fun o => osWriteByte junk o b) [b] := by
  intro o data p h
  simp only [osWriteByte]
  split
  · obtain ⟨o1, h1, h2, h3, -⟩ := osFlush_spec junk h
    obtain ⟨o2, h4, h5, -⟩ := writeByte_spec h2 b (by rw [h3]; decide)
    exact ⟨o2, by rw [h1, Res.ok_bind, h4], h5⟩
  · obtain ⟨o2, h4, h5, -⟩ := writeByte_spec h b (by omega)
    exact ⟨o2, by rw [Res.ok_bind, h4], h5⟩

/-- One block written straight to the file, with nothing buffered. -/
theorem block_spec (junk : Byte) {o : OutS} {data : List Byte} {p : Nat} (h : OutOK o data p) (hb : o.buf = []) (src : List Byte) (hs : src.length ≤ bufSize) :
    ∃ f, flushI junk o.file src = .ok f ∧ OutOK { o with file := f, start := o.start + src.length } (writeAt data p src) (p + src.length) := by
  obtain ⟨f, h1, h2, h3, h4⟩ := flushI_spec junk h.wf (by rw [h.ptr]; exact h.start) src hs
  rw [h.ptr] at h3 h4
  have hp : p = o.start := by have := h.pos; rw [hb] at this; simpa using this
  have hd : data = o.file.content := by have := h.data; rw [hb, writeAt_nil] at this; exact this
  refine ⟨f, h1, ⟨h2, h.buf, h4, ?_, ?_, ?_⟩⟩
  · simp only; rw [h3, writeAt_length _ _ _ h.start]; omega
  · simp only [hb, List.length_nil]; omega
  · simp only [hb, writeAt_nil]; rw [h3, hp, hd]

theorem bytesLoop_spec (junk : Byte) : ∀ (fuel : Nat) (src : List Byte) (o : OutS) (data : List Byte) (p : Nat), src.length ≤ fuel → OutOK o data p → o.buf = [] →
    ∃ o', osBytesLoop junk fuel o src = .ok o' ∧ OutOK o' (writeAt data p src) (p + src.length) ∧ o'.buf = [] := by
  intro fuel
  induction fuel with
  | zero =>
    intro src o data p hl h hb
    obtain rfl : src = [] := List.length_eq_zero_iff.1 (by omega)
    exact ⟨o, by simp [osBytesLoop], by rw [writeAt_nil]; exact h, hb⟩
  | succ f ih =>
    intro src o data p hl h hb
    unfold osBytesLoop
    by_cases hsrc : src = []
    · subst hsrc
      exact ⟨o, by simp, by rw [writeAt_nil]; exact h, hb⟩
    · rw [if_neg hsrc]
      dsimp only
      have hpos : 0 < src.length := List.length_pos_iff.2 hsrc
      generalize hto : (if src.length < bufSize then src.length else bufSize) = n
      have hn : n ≤ src.length ∧ n ≤ bufSize ∧ 0 < n := by
        have : 0 < bufSize := by decide
        split at hto <;> omega
      have htl : (src.take n).length = n := by rw [List.length_take]; omega
      obtain ⟨fl, h1, h2⟩ := block_spec junk h hb (src.take n) (by omega)
      rw [h1, Res.ok_bind]
      rw [htl] at h2
      obtain ⟨o', h3, h4, h5⟩ := ih (src.drop n) _ _ _ (by rw [List.length_drop]; omega) h2 hb
      refine ⟨o', h3, ?_, h5⟩
      have hk := writeAt_writeAt data (src.take n) (src.drop n) p h.le
      rw [htl, List.take_append_drop] at hk
      rw [hk, List.length_drop] at h4
      rw [show p + src.length = p + n + (src.length - n) by omega]
      exact h4

theorem emits_bytes (junk : Byte) (src : List Byte) : Emits (fun o => osWriteBytes junk o src) src := by
  intro o data p h
  have hpre : ∃ o1, (if o.buf.length > 0 then osFlush junk o else .ok o) = .ok o1 ∧ OutOK o1 data p ∧ o1.buf = [] := by
    split
    · obtain ⟨o1, h1, h2, h3, -⟩ := osFlush_spec junk h; exact ⟨o1, h1, h2, h3⟩
    · exact ⟨o, rfl, h, List.length_eq_zero_iff.1 (by omega)⟩
  obtain ⟨o1, h1, h2, h3⟩ := hpre
  simp only [osWriteBytes]
  rw [h1, Res.ok_bind]
  split
  · obtain ⟨f, h4, h5⟩ := block_spec junk h2 h3 src (by omega)
    exact ⟨_, by rw [h4, Res.ok_bind], h5⟩
  · obtain ⟨o', h4, h5, -⟩ := bytesLoop_spec junk src.length src o1 data p (Nat.le_refl _) h2 h3
    exact ⟨o', h4, h5⟩

theorem vLoop_checked (junk : Byte) : ∀ (fuel n : Nat), 0 < fuel → n < 128 ^ fuel → Emits (fun o => vLoop (osWriteByte junk) fuel o n) (vbytes fuel n) := by
  intro fuel
  induction fuel with
  | zero => intro n h; omega
  | succ f ih =>
    intro n _ hn
    unfold vLoop vbytes
    by_cases hgt : n > 127
    · simp only [hgt, if_true]
      have hf : 0 < f := by cases f with
        | zero => simp at hn; omega
        | succ f => omega
      exact (emits_byte junk _).bind (ih (n / 128) hf (by rw [Nat.pow_succ] at hn; omega))
    · simp only [hgt, if_false]
      exact emits_byte junk _

theorem vLoop_unchecked : ∀ (fuel n : Nat) (o : OutS) (data : List Byte) (p : Nat), 0 < fuel → n < 128 ^ fuel → o.buf.length + fuel ≤ bufSize → OutOK o data p →
    ∃ o', vLoop writeByte fuel o n = .ok o' ∧ OutOK o' (writeAt data p (vbytes fuel n)) (p + (vbytes fuel n).length) := by
  intro fuel
  induction fuel with
  | zero => intro n o data p h; omega
  | succ f ih =>
    intro n o data p _ hn hb h
    unfold vLoop vbytes
    by_cases hgt : n > 127
    · simp only [hgt, if_true]
      have hf : 0 < f := by cases f with
        | zero => simp at hn; omega
        | succ f => omega
      obtain ⟨o1, h1, h2, h3⟩ := writeByte_spec h (byteOf (n % 128 + 128)) (by omega)
      obtain ⟨o2, h4, h5⟩ := ih (n / 128) o1 _ _ hf (by rw [Nat.pow_succ] at hn; omega) (by omega) h2
      refine ⟨o2, by rw [h1, Res.ok_bind, h4], ?_⟩
      have hk := writeAt_writeAt data [byteOf (n % 128 + 128)] (vbytes f (n / 128)) p h.le
      simp only [List.length_singleton, List.singleton_append] at hk
      rw [hk] at h5
      rw [List.length_cons, show p + ((vbytes f (n / 128)).length + 1) = p + 1 + (vbytes f (n / 128)).length by omega]
      exact h5
    · simp only [hgt, if_false]
      obtain ⟨o1, h1, h2, -⟩ := writeByte_spec h (byteOf n) (by omega)
      exact ⟨o1, h1, h2⟩

theorem emits_v (junk : Byte) (n : Nat) (hn : n < 2 ^ 64) : Emits (fun o => osWriteV junk o n) (vint n) := by
  intro o data p h
  have hn' : n < 128 ^ 10 := Nat.lt_of_lt_of_le hn (by decide)
  simp only [osWriteV]
  split
  · exact vLoop_checked junk 10 n (by decide) hn' o data p h
  · rename_i hlt
    exact vLoop_unchecked 10 n o data p (by decide) hn' (by simp only [vintEnd, bufSize] at *; omega) h

theorem emits_u (junk : Byte) (k n : Nat) : Emits (fun o => osWriteU junk k o n) (beBytes k n) := by
  induction k with
  | zero => exact Emits.ok
  | succ k ih =>
    have hb : byteOf (n / 256 ^ k % 256) = byteOf (n / 256 ^ k) := by
      apply UInt8.toNat_inj.1; rw [byteOf_toNat_mod, byteOf_toNat_mod, Nat.mod_mod]
    simp only [osWriteU, beBytes, hb]
    exact (emits_byte junk _).bind ih

theorem emits_i (junk : Byte) (k : Nat) (x : Int) : Emits (fun o => osWriteI junk k o x) (beBytes k (toU k x)) := by
  have key : ∀ (m : Nat), m ≤ k → Emits (fun o => osWriteI junk m o x) (beBytes m (toU k x)) := by
    intro m
    induction m with
    | zero => intro _; exact Emits.ok
    | succ m ih =>
      intro hm
      have hb : byteOf ((x / (256 ^ m : Nat)) % 256).toNat = byteOf (toU k x / 256 ^ m) := by
        have : ((x / (256 ^ m : Nat)) % 256).toNat = (toU k x / 256 ^ m) % 256 := by
          unfold toU
          obtain ⟨d, rfl⟩ : ∃ d, k = m + 1 + d := ⟨k - (m + 1), by omega⟩
          generalize hK : (256 ^ (m + 1 + d) : Nat) = K
          have hKM : K = 256 ^ m * (256 * 256 ^ d) := by rw [← hK, Nat.pow_add, Nat.pow_succ, Nat.mul_assoc]
          have hMpos : 0 < 256 ^ m := Nat.pow_pos (by decide)
          have hDpos : 0 < 256 ^ d := Nat.pow_pos (by decide)
          generalize (256 ^ m : Nat) = M at *
          generalize (256 ^ d : Nat) = D at *
          have hKpos : 0 < K := by rw [hKM]; exact Nat.mul_pos hMpos (Nat.mul_pos (by decide) hDpos)
          have hr0 : 0 ≤ x % (K : Int) := Int.emod_nonneg _ (by omega)
          apply Int.ofNat_inj.1
          rw [Int.toNat_of_nonneg (Int.emod_nonneg _ (by decide))]
          rw [Int.natCast_emod, Int.natCast_ediv, Int.toNat_of_nonneg hr0]
          have hx : x = x % (K : Int) + (M : Int) * (256 * D * (x / K)) := by
            have := Int.emod_add_mul_ediv x K
            rw [hKM] at this ⊢
            rw [Int.natCast_mul, Int.natCast_mul] at this ⊢
            calc x = _ := this.symm
              _ = _ := by rw [Int.mul_assoc (M : Int)]; rfl
          have hdiv : x / (M : Int) = x % (K : Int) / M + 256 * (D * (x / K)) := by
            have hM0 : (M : Int) ≠ 0 := by omega
            conv => lhs; rw [hx]
            rw [Int.add_mul_ediv_left _ _ hM0, Int.mul_assoc]
          rw [hdiv]
          have : ∀ a b : Int, (a + 256 * b) % 256 = a % 256 := by intro a b; omega
          rw [this]; rfl
        rw [this]
        apply UInt8.toNat_inj.1; rw [byteOf_toNat_mod, byteOf_toNat_mod, Nat.mod_mod]
      simp only [osWriteI, beBytes, hb]
      exact (emits_byte junk _).bind (ih (by omega))
  exact key k (Nat.le_refl _)

theorem emits_string (junk : Byte) (s : List Byte) (hs : s.length < 2 ^ 31) : Emits (fun o => osWriteString junk o s) (vstring s) :=
  (emits_v junk s.length (by omega)).bind (emits_bytes junk s)

/-! ### Input -/

def InFile.content : InFile → List Byte
  | .ram rf _ => rf.content
  | .fs data => data
  | .cmpd base off len => slice base off len

/-- Members of compound files are treated apart (C12). -/
def InFile.WF : InFile → Prop
  | .ram rf _ => rf.WF
  | .fs _ => True
  | .cmpd _ _ _ => False

/-- The RAM file's pointer is `p`. -/
def InFile.At : InFile → Nat → Prop
  | .ram _ q, p => q = p
  | .fs _, _ => True
  | .cmpd _ _ _, _ => True

/-- The stream stands for a file holding `data`, at position `p`. -/
structure InOK (s : InS) (data : List Byte) (p : Nat) : Prop where
  wf : s.file.WF
  content : s.file.content = data
  pos : p = s.start + s.pos
  buf : s.buf = slice data s.start s.buf.length
  ptr : s.file.At (if s.pos < s.buf.length then s.start + s.buf.length else s.start + s.pos)
  fit : s.pos ≤ s.buf.length ∨ s.buf = []

theorem inLength_eq {f : InFile} (h : f.WF) : inLength f = f.content.length := by
  cases f with
  | ram rf p => exact (content_length h).symm
  | fs data => rfl
  | cmpd _ _ _ => exact h.elim

theorem readI_spec {f : InFile} (hwf : f.WF) (p n : Nat) (hat : f.At p) (hlen : p + n ≤ f.content.length ∨ n = 0) :
    ∃ f', readI p f n = .ok (slice f.content p n, f') ∧ f'.WF ∧ f'.content = f.content ∧ f'.At (p + n) := by
  cases f with
  | ram rf q =>
    simp only [InFile.WF, InFile.At, InFile.content] at *
    subst hat
    have hcl := content_length hwf
    have := hwf.len
    refine ⟨.ram rf (q + n), ?_, hwf, rfl, rfl⟩
    simp only [readI]
    rcases hlen with hlen | rfl
    · rw [ramiLoop_spec hwf n q n (Nat.le_refl _) (by omega), Res.ok_bind]
      rw [show rf.content = rf.flat.take rf.len from rfl, slice_take _ _ _ _ (by omega)]
    · simp [ramiLoop, slice_zero]
  | fs data =>
    simp only [InFile.content] at hlen
    refine ⟨.fs data, ?_, trivial, rfl, trivial⟩
    simp only [readI]; rw [if_pos hlen]; rfl
  | cmpd _ _ _ => exact hwf.elim

theorem isOpen_spec {f : InFile} (hwf : f.WF) : InOK (isOpen f) f.content 0 := by
  refine ⟨?_, ?_, rfl, by simp [isOpen, slice_zero], ?_, .inr rfl⟩
  · cases f <;> exact hwf
  · cases f <;> rfl
  · cases f <;> simp [isOpen, inSeekI, InFile.At]

theorem readByte_spec {s : InS} {data : List Byte} {p : Nat} (h : InOK s data p) (hlt : s.pos < s.buf.length) :
    ∃ b s', data[p]? = some b ∧ readByte s = .ok (b, s') ∧ InOK s' data (p + 1) ∧ s'.buf = s.buf ∧ s'.pos = s.pos + 1 := by
  have hb : s.buf[s.pos]? = data[p]? := by
    rw [h.buf, slice_getElem?, if_pos hlt, h.pos]
  have hs : s.buf[s.pos]? = some s.buf[s.pos] := List.getElem?_eq_getElem hlt
  refine ⟨s.buf[s.pos], { s with pos := s.pos + 1 }, ?_, ?_, ⟨h.wf, h.content, ?_, h.buf, ?_, .inl (by simp only; omega)⟩, rfl, rfl⟩
  · rw [← hb, hs]
  · unfold readByte; rw [hs]
  · simp only; have := h.pos; omega
  · have := h.ptr
    rw [if_pos hlt] at this
    simp only
    split
    · exact this
    · have e : s.start + (s.pos + 1) = s.start + s.buf.length := by omega
      rw [e]; exact this

/-- What `is_read_byte` does: the byte at the position, or EOF at the end. -/
theorem isReadByteSt_spec {s : InS} {data : List Byte} {p : Nat} (h : InOK s data p) :
    (∃ b s', data[p]? = some b ∧ isReadByteSt s = .ok (some b, s') ∧ InOK s' data (p + 1)) ∨
    (data.length ≤ p ∧ ∃ s', isReadByteSt s = .ok (none, s') ∧ InOK s' data p) := by
  unfold isReadByteSt
  by_cases hge : s.pos ≥ s.buf.length
  · rw [if_pos hge]
    have hptr := h.ptr
    rw [if_neg (by omega)] at hptr
    unfold isRefill
    dsimp only
    rw [inLength_eq h.wf, h.content]
    have hbs : 0 < bufSize := by decide
    have hp := h.pos
    by_cases hend : data.length ≤ p
    · right
      rw [if_pos (by split <;> omega), Res.ok_bind]
      refine ⟨hend, _, rfl, ⟨h.wf, h.content, h.pos, by simp [slice_zero], ?_, .inr rfl⟩⟩
      simp only [List.length_nil, Nat.not_lt_zero, if_false]
      exact hptr
    · left
      rw [if_neg (by split <;> omega)]
      generalize hto : (if s.start + s.pos + bufSize > data.length then data.length else s.start + s.pos + bufSize) - (s.start + s.pos) = n
      have hn : 0 < n ∧ s.start + s.pos + n ≤ data.length := by split at hto <;> omega
      obtain ⟨f', h1, h2, h3, h4⟩ := readI_spec h.wf (s.start + s.pos) n hptr (.inl (by rw [h.content]; omega))
      rw [h.content] at h1 h3
      rw [show isPos s = s.start + s.pos from rfl, h1, Res.ok_bind, Res.ok_bind]
      simp only [if_true]
      have hl : (slice data (s.start + s.pos) n).length = n := by rw [slice_length]; omega
      have hok : InOK ⟨f', slice data (s.start + s.pos) n, s.start + s.pos, 0⟩ data p := by
        refine ⟨h2, h3, by simpa using h.pos, by simp only [hl], ?_, .inl (by simp)⟩
        simp only [hl]; rw [if_pos hn.1]; exact h4
      obtain ⟨b, s', hb1, hb2, hb3, -⟩ := readByte_spec hok (by simp only [hl]; exact hn.1)
      exact ⟨b, s', hb1, by rw [hb2, Res.ok_bind], hb3⟩
  · rw [if_neg hge]
    left
    obtain ⟨b, s', hb1, hb2, hb3, -⟩ := readByte_spec h (by omega)
    exact ⟨b, s', hb1, by rw [hb2, Res.ok_bind], hb3⟩

/-- The operation reads what the reader reads from the bytes at the position of the stream. -/
def Reads {α : Type} (op : InS → Res (α × InS)) (rd : Rd α) : Prop :=
  ∀ s data p, InOK s data p → ∀ v rest, rd (data.drop p) = .ok (v, rest) → ∃ s' p', op s = .ok (v, s') ∧ InOK s' data p' ∧ data.drop p' = rest

theorem drop_cons_of_getElem? {l : List Byte} {p : Nat} {b : Byte} (h : l[p]? = some b) : l.drop p = b :: l.drop (p + 1) := by
  obtain ⟨hp, hb⟩ := List.getElem?_eq_some_iff.1 h
  rw [List.drop_eq_getElem_cons hp, hb]

theorem reads_byte : Reads isReadByte rdByte := by
  intro s data p h v rest hr
  rcases isReadByteSt_spec h with ⟨b, s', h1, h2, h3⟩ | ⟨h1, -⟩
  · rw [drop_cons_of_getElem? h1] at hr
    simp only [rdByte, Res.ok.injEq, Prod.mk.injEq] at hr
    obtain ⟨rfl, rfl⟩ := hr
    exact ⟨s', p + 1, by simp only [isReadByte]; rw [h2, Res.ok_bind], h3, rfl⟩
  · rw [List.drop_of_length_le h1] at hr; cases hr

theorem vRead_checked (bits : Nat) : ∀ (fuel shift acc : Nat) (s : InS) (data : List Byte) (p : Nat), InOK s data p → bits ≤ shift + 7 * fuel → ∀ v rest, rdV bits shift acc (data.drop p) = .ok (v, rest) →
    0 < fuel → ∃ s' p', vReadLoop isReadByte bits fuel shift acc s = .ok (v, s') ∧ InOK s' data p' ∧ data.drop p' = rest := by
  intro fuel
  induction fuel with
  | zero => intro shift acc s data p h hf v rest hr h0; omega
  | succ f ih =>
    intro shift acc s data p h hf v rest hr _
    unfold vReadLoop
    rcases isReadByteSt_spec h with ⟨b, s', h1, h2, h3⟩ | ⟨h1, -⟩
    · have hb : isReadByte s = .ok (b, s') := by simp only [isReadByte]; rw [h2, Res.ok_bind]
      rw [hb, Res.ok_bind]
      rw [drop_cons_of_getElem? h1] at hr
      unfold rdV at hr
      dsimp only at hr ⊢
      by_cases hs : shift ≥ bits
      · rw [if_pos hs] at hr; cases hr
      · rw [if_neg hs] at hr ⊢
        by_cases hm : b.toNat ≥ 128
        · rw [if_pos hm] at hr ⊢
          by_cases hf0 : 0 < f
          · exact ih _ _ s' data (p + 1) h3 (by omega) v rest hr hf0
          · -- the next round would shift too far
            exfalso
            cases hd : data.drop (p + 1) with
            | nil => rw [hd] at hr; simp [rdV] at hr
            | cons c cs =>
              rw [hd] at hr; unfold rdV at hr
              rw [if_pos (by omega)] at hr; cases hr
        · rw [if_neg hm] at hr ⊢
          simp only [Res.ok.injEq, Prod.mk.injEq] at hr
          obtain ⟨rfl, rfl⟩ := hr
          exact ⟨s', p + 1, rfl, h3, rfl⟩
    · rw [List.drop_of_length_le h1] at hr; simp [rdV] at hr

theorem vRead_unchecked (bits : Nat) (hbits : bits ≤ 70) : ∀ (fuel shift acc : Nat) (s : InS) (data : List Byte) (p : Nat), InOK s data p → 70 ≤ shift + 7 * (s.buf.length - s.pos) → bits ≤ shift + 7 * fuel → ∀ v rest, rdV bits shift acc (data.drop p) = .ok (v, rest) →
    0 < fuel → ∃ s' p', vReadLoop readByte bits fuel shift acc s = .ok (v, s') ∧ InOK s' data p' ∧ data.drop p' = rest := by
  intro fuel
  induction fuel with
  | zero => intro shift acc s data p h _ hf v rest hr h0; omega
  | succ f ih =>
    intro shift acc s data p h hsp hf v rest hr _
    unfold vReadLoop
    by_cases hs : shift ≥ bits
    · exfalso
      cases hd : data.drop p with
      | nil => rw [hd] at hr; simp [rdV] at hr
      | cons c cs => rw [hd] at hr; unfold rdV at hr; rw [if_pos (by omega)] at hr; cases hr
    · obtain ⟨b, s', h1, h2, h3, h4, h5⟩ := readByte_spec h (by omega)
      rw [h2, Res.ok_bind]
      rw [drop_cons_of_getElem? h1] at hr
      unfold rdV at hr
      dsimp only at hr ⊢
      rw [if_neg hs] at hr ⊢
      by_cases hm : b.toNat ≥ 128
      · rw [if_pos hm] at hr ⊢
        by_cases hf0 : 0 < f
        · exact ih _ _ s' data (p + 1) h3 (by rw [h4, h5]; omega) (by omega) v rest hr hf0
        · exfalso
          cases hd : data.drop (p + 1) with
          | nil => rw [hd] at hr; simp [rdV] at hr
          | cons c cs =>
            rw [hd] at hr; unfold rdV at hr
            rw [if_pos (by omega)] at hr; cases hr
      · rw [if_neg hm] at hr ⊢
        simp only [Res.ok.injEq, Prod.mk.injEq] at hr
        obtain ⟨rfl, rfl⟩ := hr
        exact ⟨s', p + 1, rfl, h3, rfl⟩

theorem reads_v (bits : Nat) (hb : bits ≤ 64) : Reads (isReadV bits) (rdV bits 0 0) := by
  intro s data p h v rest hr
  unfold isReadV
  split
  · exact vRead_checked bits 11 0 0 s data p h (by omega) v rest hr (by decide)
  · exact vRead_unchecked bits (by omega) 11 0 0 s data p h (by omega) (by omega) v rest hr (by decide)

theorem reads_u (k acc : Nat) : Reads (isReadU k acc) (rdBE k acc) := by
  induction k generalizing acc with
  | zero =>
    intro s data p h v rest hr
    simp only [rdBE, Res.ok.injEq, Prod.mk.injEq] at hr
    obtain ⟨rfl, rfl⟩ := hr
    exact ⟨s, p, rfl, h, rfl⟩
  | succ k ih =>
    intro s data p h v rest hr
    unfold rdBE at hr
    obtain ⟨⟨b, r⟩, hb, hr⟩ := Res.bind_eq_ok.1 hr
    obtain ⟨s1, p1, h1, h2, h3⟩ := reads_byte s data p h b r hb
    simp only at hr
    rw [← h3] at hr
    obtain ⟨s2, p2, h4, h5, h6⟩ := ih _ s1 data p1 h2 v rest hr
    exact ⟨s2, p2, by simp only [isReadU]; rw [h1, Res.ok_bind, h4], h5, h6⟩

theorem readLoop_checked : ∀ (n : Nat), Reads (readLoop isReadByte n) (rdBytes n) := by
  intro n
  induction n with
  | zero =>
    intro s data p h v rest hr
    simp only [rdBytes, Nat.zero_le, if_true, List.take_zero, List.drop_zero, Res.ok.injEq, Prod.mk.injEq] at hr
    obtain ⟨rfl, rfl⟩ := hr
    exact ⟨s, p, rfl, h, rfl⟩
  | succ n ih =>
    intro s data p h v rest hr
    unfold rdBytes at hr
    split at hr
    · rename_i hle
      simp only [Res.ok.injEq, Prod.mk.injEq] at hr
      obtain ⟨rfl, rfl⟩ := hr
      rcases isReadByteSt_spec h with ⟨b, s1, h1, h2, h3⟩ | ⟨h1, -⟩
      · have hb : isReadByte s = .ok (b, s1) := by simp only [isReadByte]; rw [h2, Res.ok_bind]
        rw [drop_cons_of_getElem? h1] at hle ⊢
        simp only [List.length_cons] at hle
        obtain ⟨s2, p2, h4, h5, h6⟩ := ih s1 data (p + 1) h3 ((data.drop (p + 1)).take n) ((data.drop (p + 1)).drop n) (by unfold rdBytes; rw [if_pos (by omega)])
        refine ⟨s2, p2, ?_, h5, by simpa using h6⟩
        simp only [readLoop]; rw [hb, Res.ok_bind, h4, Res.ok_bind]; simp
      · rw [List.drop_of_length_le h1] at hle; simp at hle
    · cases hr

theorem readLoop_unchecked : ∀ (n : Nat) (s : InS) (data : List Byte) (p : Nat), InOK s data p → s.pos + n ≤ s.buf.length →
    ∃ s', readLoop readByte n s = .ok (slice data p n, s') ∧ InOK s' data (p + n) := by
  intro n
  induction n with
  | zero => intro s data p h _; exact ⟨s, by simp [readLoop, slice_zero], h⟩
  | succ n ih =>
    intro s data p h hl
    obtain ⟨b, s1, h1, h2, h3, h4, h5⟩ := readByte_spec h (by omega)
    obtain ⟨s2, h6, h7⟩ := ih s1 data (p + 1) h3 (by rw [h4, h5]; omega)
    refine ⟨s2, ?_, by rw [show p + (n + 1) = p + 1 + n by omega]; exact h7⟩
    simp only [readLoop]; rw [h2, Res.ok_bind, h6, Res.ok_bind]
    simp only
    unfold slice
    rw [drop_cons_of_getElem? h1, List.take_succ_cons]

theorem isReadBytes_spec {s : InS} {data : List Byte} {p : Nat} (h : InOK s data p) (n : Nat) (hn : p + n ≤ data.length ∨ n = 0) :
    ∃ s', isReadBytes s n = .ok (slice data p n, s') ∧ InOK s' data (p + n) := by
  unfold isReadBytes
  split
  · exact readLoop_unchecked n s data p h (by omega)
  · dsimp only
    have hp : isPos s = p := h.pos.symm
    rw [hp]
    have hc : (inSeekI s.file p).content = data := by rw [← h.content]; cases s.file <;> rfl
    have hwf : (inSeekI s.file p).WF := by have := h.wf; cases hf : s.file <;> rw [hf] at this <;> exact this
    have hat : (inSeekI s.file p).At p := by cases s.file <;> simp [inSeekI, InFile.At]
    obtain ⟨f', h1, h2, h3, h4⟩ := readI_spec hwf p n hat (by rw [hc]; exact hn)
    rw [hc] at h1 h3
    refine ⟨_, by rw [h1, Res.ok_bind], ⟨h2, h3, rfl, by simp [slice_zero], ?_, .inr rfl⟩⟩
    simpa using h4

theorem reads_bytes (n : Nat) : Reads (fun s => isReadBytes s n) (rdBytes n) := by
  intro s data p h v rest hr
  unfold rdBytes at hr
  split at hr
  · rename_i hle
    rw [List.length_drop] at hle
    simp only [Res.ok.injEq, Prod.mk.injEq] at hr
    obtain ⟨rfl, rfl⟩ := hr
    obtain ⟨s', h1, h2⟩ := isReadBytes_spec h n (by omega)
    exact ⟨s', p + n, h1, h2, by rw [List.drop_drop]⟩
  · cases hr

theorem isSeek_spec {s : InS} {data : List Byte} {p : Nat} (h : InOK s data p) (q : Nat) : InOK (isSeek s q) data q := by
  unfold isSeek
  split
  · rename_i hq
    refine ⟨h.wf, h.content, by simp only; omega, h.buf, ?_, .inl (by simp only; omega)⟩
    have hptr := h.ptr
    simp only
    rw [if_pos (by omega)]
    rcases h.fit with hf | hf
    · split at hptr
      · exact hptr
      · rw [show s.start + s.buf.length = s.start + s.pos by omega]; exact hptr
    · rw [hf] at hq; simp at hq; omega
  · refine ⟨?_, ?_, rfl, by simp [slice_zero], ?_, .inr rfl⟩
    · have := h.wf; simp only; cases hf : s.file <;> rw [hf] at this <;> exact this
    · rw [← h.content]; simp only; cases s.file <;> rfl
    · simp only; cases s.file <;> simp [inSeekI, InFile.At]

theorem reads_string : Reads isReadString (fun l => rdVint l >>= fun r => if r.1 < 2 ^ 31 then rdBytes r.1 r.2 else .ub) := by
  intro s data p h v rest hr
  obtain ⟨⟨n, r⟩, hn, hr⟩ := Res.bind_eq_ok.1 hr
  obtain ⟨s1, p1, h1, h2, h3⟩ := reads_v 32 (by decide) s data p h n r hn
  simp only at hr
  split at hr
  · rename_i hlt
    rw [← h3] at hr
    simp only [isReadString]
    rw [h1, Res.ok_bind]
    simp only
    rw [if_neg (by omega)]
    split
    · exact readLoop_checked n s1 data p1 h2 v rest hr
    · rename_i hle
      unfold rdBytes at hr
      split at hr
      · simp only [Res.ok.injEq, Prod.mk.injEq] at hr
        obtain ⟨rfl, rfl⟩ := hr
        refine ⟨{ s1 with pos := s1.pos + n }, p1 + n, ?_, ⟨h2.wf, h2.content, by simp only; have := h2.pos; omega, h2.buf, ?_, .inl (by simp only; omega)⟩, by rw [List.drop_drop]⟩
        · congr 2
          show slice s1.buf s1.pos n = slice data p1 n
          apply List.ext_getElem?
          intro i
          rw [slice_getElem?, slice_getElem?]
          split
          · rw [h2.buf, slice_getElem?, if_pos (by omega), h2.pos]; congr 1; omega
          · rfl
        · have hptr := h2.ptr
          simp only
          split
          · rw [if_pos (by omega)] at hptr; exact hptr
          · split at hptr
            · rw [show s1.start + (s1.pos + n) = s1.start + s1.buf.length by omega]; exact hptr
            · rw [show s1.start + (s1.pos + n) = s1.start + s1.pos by omega]; exact hptr
      · cases hr
  · cases hr

/-- The position after skipping `cnt` numbers of variable length. -/
def skipV : Nat → List Byte → Option (List Byte)
  | 0, l => some l
  | _ + 1, [] => none
  | cnt + 1, b :: bs => if b.toNat ≥ 128 then skipV (cnt + 1) bs else skipV cnt bs

theorem skipV_le : ∀ (cnt : Nat) (l r : List Byte), skipV cnt l = some r → r.length + cnt ≤ l.length := by
  intro cnt l
  induction l generalizing cnt with
  | nil => intro r h; cases cnt with
    | zero => simp [skipV] at h; subst h; simp
    | succ c => simp [skipV] at h
  | cons b bs ih =>
    intro r h
    cases cnt with
    | zero => simp [skipV] at h; subst h; simp
    | succ c =>
      simp only [skipV] at h
      split at h
      · have := ih (c + 1) r h; simp only [List.length_cons]; omega
      · have := ih c r h; simp only [List.length_cons]; omega

theorem isSkipVints_spec : ∀ (fuel cnt : Nat) (s : InS) (data : List Byte) (p : Nat), InOK s data p → (data.drop p).length ≤ fuel → ∀ rest, skipV cnt (data.drop p) = some rest →
    ∃ s' p', isSkipVints fuel cnt s = .ok s' ∧ InOK s' data p' ∧ data.drop p' = rest := by
  intro fuel
  induction fuel with
  | zero =>
    intro cnt s data p h hf rest hr
    have : data.drop p = [] := List.length_eq_zero_iff.1 (by omega)
    rw [this] at hr
    cases cnt with
    | zero => simp [skipV] at hr; exact ⟨s, p, rfl, h, by rw [this, hr]⟩
    | succ c => simp [skipV] at hr
  | succ f ih =>
    intro cnt s data p h hf rest hr
    cases cnt with
    | zero => simp [skipV] at hr; exact ⟨s, p, rfl, h, hr⟩
    | succ c =>
      unfold isSkipVints
      rcases isReadByteSt_spec h with ⟨b, s1, h1, h2, h3⟩ | ⟨h1, -⟩
      · have hb : isReadByte s = .ok (b, s1) := by simp only [isReadByte]; rw [h2, Res.ok_bind]
        rw [hb, Res.ok_bind]
        have hd := drop_cons_of_getElem? h1
        rw [hd] at hr hf
        simp only [skipV] at hr
        simp only [List.length_cons] at hf
        simp only
        split
        · rename_i hm
          rw [if_pos hm] at hr
          exact ih (c + 1) s1 data (p + 1) h3 (by omega) rest hr
        · rename_i hm
          rw [if_neg hm] at hr
          exact ih c s1 data (p + 1) h3 (by omega) rest hr
      · rw [List.drop_of_length_le h1] at hr; simp [skipV] at hr

theorem copyBytes_spec (junk : Byte) : ∀ (fuel cnt : Nat) (s : InS) (src : List Byte) (p : Nat) (o : OutS) (dst : List Byte) (q : Nat), cnt ≤ fuel → InOK s src p → p + cnt ≤ src.length → OutOK o dst q →
    ∃ s' o', copyBytes junk fuel cnt s o = .ok (s', o') ∧ InOK s' src (p + cnt) ∧ OutOK o' (writeAt dst q (slice src p cnt)) (q + cnt) := by
  intro fuel
  induction fuel with
  | zero =>
    intro cnt s src p o dst q hf hs hl ho
    obtain rfl : cnt = 0 := by omega
    exact ⟨s, o, by simp [copyBytes], hs, by rw [slice_zero, writeAt_nil]; exact ho⟩
  | succ f ih =>
    intro cnt s src p o dst q hf hs hl ho
    cases cnt with
    | zero => exact ⟨s, o, by simp [copyBytes], hs, by rw [slice_zero, writeAt_nil]; exact ho⟩
    | succ c =>
      unfold copyBytes
      dsimp only
      generalize hto : (if c + 1 > bufSize then bufSize else c + 1) = n
      have hn : 0 < n ∧ n ≤ c + 1 := by
        have : 0 < bufSize := by decide
        split at hto <;> omega
      obtain ⟨s1, h1, h2⟩ := isReadBytes_spec hs n (.inl (by omega))
      have hl1 : (slice src p n).length = n := by rw [slice_length]; omega
      obtain ⟨o1, h3, h4⟩ := emits_bytes junk (slice src p n) o dst q ho
      rw [hl1] at h4
      simp only at h3
      rw [h1, Res.ok_bind, h3, Res.ok_bind]
      obtain ⟨s2, o2, h5, h6, h7⟩ := ih (c + 1 - n) s1 src (p + n) o1 _ (q + n) (by omega) h2 (by omega) h4
      refine ⟨s2, o2, h5, ?_, ?_⟩
      · rw [show p + (c + 1) = p + n + (c + 1 - n) by omega]; exact h6
      · have hk := writeAt_writeAt dst (slice src p n) (slice src (p + n) (c + 1 - n)) q ho.le
        rw [hl1, slice_append_slice, show n + (c + 1 - n) = c + 1 by omega] at hk
        rw [hk] at h7
        rw [show q + (c + 1) = q + n + (c + 1 - n) by omega]; exact h7

theorem copyVints_spec (junk : Byte) : ∀ (fuel cnt : Nat) (s : InS) (src : List Byte) (p : Nat) (o : OutS) (dst : List Byte) (q : Nat), InOK s src p → (src.drop p).length ≤ fuel → OutOK o dst q → ∀ rest, skipV cnt (src.drop p) = some rest →
    ∃ s' o' p' w, copyVints junk fuel cnt s o = .ok (s', o') ∧ src.drop p = w ++ rest ∧ InOK s' src p' ∧ src.drop p' = rest ∧ OutOK o' (writeAt dst q w) (q + w.length) := by
  intro fuel
  induction fuel with
  | zero =>
    intro cnt s src p o dst q hs hf ho rest hr
    have hnil : src.drop p = [] := List.length_eq_zero_iff.1 (by omega)
    rw [hnil] at hr
    cases cnt with
    | zero =>
      simp [skipV] at hr; subst hr
      exact ⟨s, o, p, [], by simp [copyVints], by simp [hnil], hs, hnil, by rw [writeAt_nil]; exact ho⟩
    | succ c => simp [skipV] at hr
  | succ f ih =>
    intro cnt s src p o dst q hs hf ho rest hr
    cases cnt with
    | zero =>
      simp [skipV] at hr; subst hr
      exact ⟨s, o, p, [], by simp [copyVints], by simp, hs, rfl, by rw [writeAt_nil]; exact ho⟩
    | succ c =>
      unfold copyVints
      rcases isReadByteSt_spec hs with ⟨b, s1, h1, h2, h3⟩ | ⟨h1, -⟩
      · have hb : isReadByte s = .ok (b, s1) := by simp only [isReadByte]; rw [h2, Res.ok_bind]
        rw [hb, Res.ok_bind]
        obtain ⟨o1, h4, h5⟩ := emits_byte junk b o dst q ho
        simp only at h4 ⊢
        rw [h4, Res.ok_bind]
        have hd := drop_cons_of_getElem? h1
        rw [hd] at hr hf
        simp only [List.length_cons] at hf
        have hr' : skipV (if b.toNat ≥ 128 then c + 1 else c) (src.drop (p + 1)) = some rest := by
          simp only [skipV] at hr
          split <;> rename_i hm
          · rw [if_pos hm] at hr; exact hr
          · rw [if_neg hm] at hr; exact hr
        obtain ⟨s2, o2, p2, w, h6, h7, h8, h9, h10⟩ := ih _ s1 src (p + 1) o1 _ (q + 1) h3 (by omega) h5 rest hr'
        refine ⟨s2, o2, p2, b :: w, h6, by rw [hd, h7]; rfl, h8, h9, ?_⟩
        have hk := writeAt_writeAt dst [b] w q ho.le
        simp only [List.length_singleton, List.singleton_append] at hk
        rw [hk] at h10
        rw [List.length_cons, show q + (w.length + 1) = q + 1 + w.length by omega]; exact h10
      · rw [List.drop_of_length_le h1] at hr; simp [skipV] at hr

end Ferret.Store
