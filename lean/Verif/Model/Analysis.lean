import Verif.Spec.Inverted
import Verif.Model.MultiMapper

/-!
Tokenizers and token filters: c/src/analysis.c 17–55 (tk_set, tk_set_ts, w_tk_set), 157–171 (mb_next_char), 248–259
(non-tokenizer), 285–391 (whitespace tokenizers), 422–529 (letter tokenizers), 1136–1197 (stop filter), 1218–1229
(mapping filter), 1271–1328 (hyphen filter), 1343–1388 (lower case filters), 1411–1431 (stem filter), 215–223
(a_standard_get_ts); c/src/scanner_mb.rl 119–145, 198–199 (how the multi-byte standard tokenizer writes a token).

Texts are the bytes before the terminating zero. `isspace`, `isalpha`, `tolower`, `mbrtowc`, `wcrtomb`, the
`isw…` functions and the stemmer are parameters. A stream of a tokenizer is what is left of its text as the sequence
of characters successive calls of mb_next_char give (single-byte tokenizers: one byte each), and where it begins;
mbrtowc is taken to keep no shift state between characters. `tk->text` and `tk->len` always agree, so a token is a
`Spec.Token`. The stream below a filter is the list of tokens it is yet to give: filters change the token in place,
and the stream below overwrites it before it gives the next. `int` overflow of `pos_inc` is not modelled. A hash of
stop words is a list (C05).
-/

namespace Ferret.Ana
open Ferret Ferret.Spec

/-- `<ctype.h>`, of bytes that are not zero. -/
structure Loc where
  isSpace : Byte → Bool
  isAlpha : Byte → Bool
  toLower : Byte → Byte

/-- `<wchar.h>` and `<wctype.h>`. `decode` is mbrtowc on a text: the wide character and the number of bytes it takes,
none for an error; `encode` is wcrtomb. -/
structure MbLoc where
  decode : List Byte → Option (Nat × Nat)
  encode : Nat → Option (List Byte)
  isSpace : Nat → Bool
  isAlpha : Nat → Bool
  toLower : Nat → Nat

/-- The bytes of a text from one offset to another. -/
def slice (text : List Byte) (s e : Nat) : List Byte := (text.drop s).take (e - s)

/-- tk_set, analysis.c 17–30: at most 254 bytes are copied. -/
def tkSet (text : List Byte) (start stop : Nat) (posInc : Int) : Token :=
  ⟨text.take (if 255 ≤ text.length then 254 else text.length), start, stop, posInc⟩

/-- tk_set_ts, analysis.c 32–37. -/
def tkSetTs (text : List Byte) (start stop : Nat) (posInc : Int) : Token := tkSet (slice text start stop) start stop posInc

/-- wcstombs into a buffer of `n` bytes: stops before a character that does not fit; none when a character cannot be
converted. -/
def wcstombs (L : MbLoc) (n : Nat) : List Nat → List Byte → Option (List Byte)
  | [], out => some out
  | w :: ws, out =>
    match L.encode w with
    | none => none
    | some bs => if out.length + bs.length ≤ n then wcstombs L n ws (out ++ bs) else some out

/-- w_tk_set, analysis.c 45–55: if a character cannot be converted, `len` is −1 and `text[-1]` is written. -/
def wTkSet (L : MbLoc) (ws : List Nat) (start stop : Nat) (posInc : Int) : Res Token :=
  match wcstombs L 254 ws [] with
  | none => .ub
  | some bs => .ok ⟨bs, start, stop, posInc⟩

/-- The loop of mb_next_char, analysis.c 162–168: `t` is at the given bytes, `k` bytes after `s`. The width is the
distance, though the character is the one at `t`. -/
def mbRecover (L : MbLoc) : List Byte → Nat → Nat × Nat
  | [], k => (0, k)
  | b :: bs, k =>
    match L.decode (b :: bs) with
    | some (w, _) => (w, k)
    | none => mbRecover L bs (k + 1)

/-- mb_next_char, analysis.c 157–171: the character, zero at the end, and its width. -/
def mbNextChar (L : MbLoc) : List Byte → Nat × Nat
  | [] => (0, 0)
  | b :: bs =>
    match L.decode (b :: bs) with
    | some (w, n) => (w, n)
    | none => mbRecover L bs 1

/-- The characters that successive calls of mb_next_char give, until zero. -/
def mbCharsAux (L : MbLoc) : Nat → List Byte → List (Nat × Nat)
  | 0, _ => []
  | f + 1, s =>
    let c := mbNextChar L s
    if c.1 = 0 then [] else c :: mbCharsAux L f (s.drop c.2)

/-- A text of `n` bytes has at most `n` characters. -/
def mbChars (L : MbLoc) (s : List Byte) : List (Nat × Nat) := mbCharsAux L s.length s

/-- For the single-byte tokenizers, a byte is a character. -/
def byteChars (s : List Byte) : List (Nat × Nat) := s.map fun b => (b.toNat, 1)

/-- TokenStream, analysis.h 83–93: `off` is `t - text`, `rest` the characters from `t`. -/
structure Tz where
  text : List Byte
  off : Nat
  rest : List (Nat × Nat)

/-- `while (wchr != 0 && p(wchr)) { t += i; … }`. -/
def skip (p : Nat → Bool) : Nat → List (Nat × Nat) → Nat × List (Nat × Nat)
  | off, [] => (off, [])
  | off, c :: cs => if p c.1 then skip p (off + c.2) cs else (off, c :: cs)

/-- wst_next, mb_wst_next, lt_next, mb_lt_next: analysis.c 285–305, 317–343, 422–442, 454–481; `p` tells the
characters of a token. -/
def nextRun (p : Nat → Bool) (s : Tz) : Option (Token × Tz) :=
  let a := skip (fun w => !p w) s.off s.rest
  match a.2 with
  | [] => none
  | c :: cs =>
    let b := skip p (a.1 + c.2) cs
    some (tkSetTs s.text a.1 b.1 1, ⟨s.text, b.1, b.2⟩)

/-- The lower-cased characters of a run that `wbuf` takes: the first, and as long as `w < w_end`; analysis.c 371–379,
509–517. -/
def lowerRun (L : MbLoc) (p : Nat → Bool) (first : Nat) (cs : List (Nat × Nat)) : List Nat :=
  L.toLower first :: ((cs.takeWhile fun c => p c.1).take 254).map fun c => L.toLower c.1

/-- mb_wst_next_lc, mb_lt_next_lc: analysis.c 348–384, 486–522. -/
def nextRunLc (L : MbLoc) (p : Nat → Bool) (s : Tz) : Res (Option (Token × Tz)) :=
  let a := skip (fun w => !p w) s.off s.rest
  match a.2 with
  | [] => .ok none
  | c :: cs =>
    let b := skip p (a.1 + c.2) cs
    wTkSet L (lowerRun L p c.1 cs) a.1 b.1 1 >>= fun tk => .ok (some (tk, ⟨s.text, b.1, b.2⟩))

/-- The tokens a stream gives until it gives none. -/
def drain {σ : Type} (next : σ → Res (Option (Token × σ))) : Nat → σ → Res (List Token)
  | 0, _ => .ub
  | f + 1, s => next s >>= fun r =>
    match r with
    | none => .ok []
    | some (tk, s) => drain next f s >>= fun tks => .ok (tk :: tks)

/-- The tokenizers. -/
inductive Tokenizer where
  /-- non_tokenizer_new -/
  | non
  /-- whitespace_tokenizer_new -/
  | ws (L : Loc)
  /-- letter_tokenizer_new -/
  | lt (L : Loc)
  /-- mb_whitespace_tokenizer_new -/
  | mbWs (L : MbLoc) (lower : Bool)
  /-- mb_letter_tokenizer_new -/
  | mbLt (L : MbLoc) (lower : Bool)

/-- `p` of the single-byte tokenizers: characters are bytes. -/
def ofByte (p : Byte → Bool) (w : Nat) : Bool := p (UInt8.ofNat w)

/-- `next` of a tokenizer until it gives no more, on a text it was reset to. nt_next, analysis.c 248–259, gives the
text once. -/
def Tokenizer.tokens (z : Tokenizer) (text : List Byte) : Res (List Token) :=
  match z with
  | .non => .ok [tkSet text 0 text.length 1]
  | .ws L => drain (fun s => .ok (nextRun (ofByte fun b => !L.isSpace b) s)) (text.length + 1) ⟨text, 0, byteChars text⟩
  | .lt L => drain (fun s => .ok (nextRun (ofByte L.isAlpha) s)) (text.length + 1) ⟨text, 0, byteChars text⟩
  | .mbWs L false => drain (fun s => .ok (nextRun (fun w => !L.isSpace w) s)) (text.length + 1) ⟨text, 0, mbChars L text⟩
  | .mbLt L false => drain (fun s => .ok (nextRun L.isAlpha s)) (text.length + 1) ⟨text, 0, mbChars L text⟩
  | .mbWs L true => drain (nextRunLc L fun w => !L.isSpace w) (text.length + 1) ⟨text, 0, mbChars L text⟩
  | .mbLt L true => drain (nextRunLc L L.isAlpha) (text.length + 1) ⟨text, 0, mbChars L text⟩

/-! ### Filters -/

/-- sf_next, analysis.c 1136–1153; `k` is `pos_inc`. -/
def sfNext (words : List (List Byte)) : Int → List Token → Option (Token × List Token)
  | _, [] => none
  | k, tk :: tks =>
    if tk.text ∈ words then sfNext words (k + tk.posInc) tks
    else some ({ tk with posInc := tk.posInc + k }, tks)

/-- mf_next, analysis.c 1218–1229. -/
def mfNext (m : MultiMap.Mapper) : List Token → Res (Option (Token × List Token))
  | [] => .ok none
  | tk :: tks => m.mapLen tk.text 255 >>= fun t => .ok (some ({ tk with text := t }, tks))

/-- lcf_next, analysis.c 1376–1388. -/
def lcfNext (L : Loc) : List Token → Option (Token × List Token)
  | [] => none
  | tk :: tks => some ({ tk with text := tk.text.map L.toLower }, tks)

/-- mbstowcs: none for an error. A character of no bytes would keep it where it is. -/
def mbstowcs (L : MbLoc) : Nat → List Byte → Option (List Nat)
  | 0, _ => some []
  | _ + 1, [] => some []
  | f + 1, b :: bs =>
    match L.decode (b :: bs) with
    | none => none
    | some (w, n) => (mbstowcs L f ((b :: bs).drop n)).map (w :: ·)

/-- mb_lcf_next, analysis.c 1343–1367: a text that cannot be read, or is empty, is left as it is; one that cannot be
written becomes "BAD_DATA". `tk->text[tk->len]` is outside of the array when the length is 255. -/
def mbLcfNext (L : MbLoc) : List Token → Res (Option (Token × List Token))
  | [] => .ok none
  | tk :: tks =>
    match mbstowcs L 255 tk.text with
    | none => .ok (some (tk, tks))
    | some [] => .ok (some (tk, tks))
    | some ws =>
      match wcstombs L 255 (ws.map L.toLower) [] with
      | none => .ok (some ({ tk with text := [66, 65, 68, 95, 68, 65, 84, 65] }, tks))
      | some bs =>
        if bs = [] then .ok (some ({ tk with text := [66, 65, 68, 95, 68, 65, 84, 65] }, tks))
        else if bs.length < 255 then .ok (some ({ tk with text := bs }, tks))
        else .ub

/-- stemf_next, analysis.c 1411–1431; `stem` is sb_stemmer_stem. -/
def stemNext (stem : List Byte → List Byte) : List Token → Option (Token × List Token)
  | [] => none
  | tk :: tks =>
    let s := stem tk.text
    some ({ tk with text := s.take (if 255 ≤ s.length then 254 else s.length) }, tks)

/-- HyphenFilter, analysis.h 118–125: `text` with its zeros, of which the first `len` and one more were written; the
token is that of the stream below. -/
structure Hf where
  text : List Byte
  start : Int
  pos : Nat
  len : Nat
  tk : Option Token

/-- A new filter: ecalloc. -/
def Hf.new : Hf := ⟨[], 0, 0, 0, none⟩

/-- The loop of hf_next, analysis.c 1295–1304: whether a hyphen was seen, and other punctuation. -/
def hfScan (isAlpha : Byte → Bool) : List Byte → Bool → Bool × Bool
  | [], seen => (seen, false)
  | b :: bs, seen =>
    if b = 45 then hfScan isAlpha bs true
    else if !isAlpha b then (seen, true)
    else hfScan isAlpha bs seen

/-- hf_next, analysis.c 1271–1328. The first byte is not looked at by the loop; of an empty text, that starts
after the terminating zero: what is there is what an earlier token left. -/
def hfNext (isAlpha : Byte → Bool) (h : Hf) (sub : List Token) : Res (Option (Token × (Hf × List Token))) :=
  if h.pos < h.len then
    match h.tk with
    | none => .ub
    | some tk =>
      let part := (h.text.drop h.pos).takeWhile (· != 0)
      let tk : Token := ⟨part, h.start + h.pos, h.start + h.pos + part.length, if h.pos = 0 then 0 else 1⟩
      .ok (some (tk, ({ h with pos := h.pos + part.length + 1, tk := some tk }, sub)))
  else
    match sub with
    | [] => .ok none
    | tk :: sub =>
      match tk.text with
      | [] => .ub
      | b :: bs =>
        let seen := hfScan isAlpha bs false
        if seen.1 && !seen.2 then
          let tk' : Token := { tk with text := (b :: bs).filter (· != 45) }
          .ok (some (tk', (⟨(b :: bs).map (fun x => if x = 45 then 0 else x), tk.start, 0, (b :: bs).length, some tk'⟩, sub)))
        else .ok (some (tk, ({ h with tk := some tk }, sub)))

/-- filter_reset, analysis.c 1091–1095, on a hyphen filter: the stream below is reset, to one that gives these tokens;
what the filter itself holds stays. -/
def hfReset (s : Hf × List Token) (sub : List Token) : Hf × List Token := (s.1, sub)

/-- The filters. -/
inductive Filter where
  /-- stop_filter_new_with_words -/
  | stop (words : List (List Byte))
  /-- mapping_filter_new, with its mapper compiled -/
  | map (m : MultiMap.Mapper)
  /-- hyphen_filter_new -/
  | hyphen (isAlpha : Byte → Bool)
  /-- lowercase_filter_new -/
  | lower (L : Loc)
  /-- mb_lowercase_filter_new -/
  | mbLower (L : MbLoc)
  /-- stem_filter_new -/
  | stem (f : List Byte → List Byte)

/-- How often a hyphen filter is asked at most: a token and each of its parts, and once more at the end. -/
def hyphenFuel : List Token → Nat
  | [] => 1
  | tk :: tks => tk.text.length + 2 + hyphenFuel tks

/-- What a filter gives, on a stream below that gives these tokens. -/
def Filter.tokens (f : Filter) (sub : List Token) : Res (List Token) :=
  match f with
  | .stop words => drain (fun s => .ok (sfNext words 0 s)) (sub.length + 1) sub
  | .map m => drain (mfNext m) (sub.length + 1) sub
  | .hyphen p => drain (fun s => hfNext p s.1 s.2) (hyphenFuel sub) (Hf.new, sub)
  | .lower L => drain (fun s => .ok (lcfNext L s)) (sub.length + 1) sub
  | .mbLower L => drain (mbLcfNext L) (sub.length + 1) sub
  | .stem f => drain (fun s => .ok (stemNext f s)) (sub.length + 1) sub

/-- A stream of filters over a stream. -/
def filterAll : List Filter → List Token → Res (List Token)
  | [], tks => .ok tks
  | f :: fs, tks => f.tokens tks >>= filterAll fs

/-- An analyzer: a_standard_get_ts, analysis.c 215–223, clones the streams it was made of, which were never asked for a
token, and resets the clone to the text. -/
structure Analyzer where
  tokenizer : Tokenizer
  filters : List Filter

/-- The tokens of the stream an analyzer gives for a text. -/
def Analyzer.tokens (a : Analyzer) (text : List Byte) : Res (List Token) :=
  a.tokenizer.tokens text >>= filterAll a.filters

/-! ### How the multi-byte standard tokenizer writes a token -/

/-- The loop of wc_to_mb, scanner_mb.rl 128–142: it goes on as long as there is a byte left, whatever the width of the next
character; `out` of 255 bytes is `tk->text`. -/
def wcToMb (L : MbLoc) (outSize : Nat) : List Nat → List Byte → Res (List Byte)
  | [], out => .ok out
  | w :: ws, out =>
    if out.length < outSize then
      if w = 0 then .ok out else
      match L.encode w with
      | none => wcToMb L outSize ws out
      | some bs => if out.length + bs.length ≤ 255 then wcToMb L outSize ws (out ++ bs) else .ub
    else .ok out

/-- The end of frt_std_scan_mb, scanner_mb.rl 198–199: the token is written, and a zero after it. -/
def scanMbOut (L : MbLoc) (ws : List Nat) : Res (List Byte) :=
  wcToMb L 254 ws [] >>= fun out => if out.length < 255 then .ok out else .ub

end Ferret.Ana
