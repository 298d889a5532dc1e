import Verif.Model.Analysis

/-!
Token streams and analyzers as objects: c/src/analysis.c 103–134 (ts_deref, ts_reset, ts_clone_size, ts_new_i), 140–150 (cts_clone_i, cts_new), 173–190
(mb_ts_reset, mb_ts_clone_i, mb_ts_new), 200–238 (a_deref, a_standard_destroy_i, a_standard_get_ts, analyzer_new), 1079–1117 (filter_clone_size, filter_clone_i, filter_reset,
filter_destroy_i, tf_new_i), 1123–1197 (sf_destroy_i, sf_clone_i, sf_next, stop_filter_new_with_words), 1205–1258 (mf_destroy_i, mf_clone_i, mf_next, mf_reset, mapping_filter_new,
mapping_filter_add), 1265–1338 (hf_clone_i, hf_next, hyphen_filter_new), 1343–1395 (lower case filters), 1403–1480 (stemf_destroy_i, stemf_next, stemf_clone_i, stem_filter_new), 1647–1690 (pfa_destroy_i,
pfa_get_ts, pfa_sub_a_destroy_i, pfa_add_field, per_field_analyzer_new); c/src/hash.c, c/src/multimapper.c (the counts of a hash and of a mapper, h_destroy, mulmap_destroy); c/include/global.h 62 (REF).

Memory is a list of objects; addresses are positions in it and are not used again. An object with count 0 is freed: to read it or to write to it is undefined. Streams, tables of stop words,
mappers and analyzers are objects; a filter holds the address of the stream below it, and a hyphen filter also that of the token it is taking apart, which is in the tokenizer.

Simplifications.
* A tokenizer gives one after the other the tokens of its text, which are a function of the text (C63, C65, C68, C89: `z`); `pos` is how many it has given. To ask one that was never given a text is undefined.
* `chain` is in no struct: it is the address of the tokenizer at the bottom, and is read by no function but to make another object with the same.
* An object is marked as freed before what it owns is given up, not after. A copy of a filter is allocated after the copy of the stream below it, not before.
* The token of a tokenizer is in the object of the tokenizer. `next` gives the address of that object, or NULL.
* The table of a per-field analyzer is a list in its object (C05), with the analyzer of a field at most once.
* The stemmer is its function, or NULL for an algorithm or encoding that the stemmer library does not know. The names kept for copies are not here: a copy makes a stemmer of the same names.
* `n` bounds how many filters are above each other and how many stop words follow each other: enough of it is shown to exist for every run.
-/

namespace Ferret.TS
open Ferret Ferret.Spec Ferret.Ana

/-- Positions in memory. -/
local notation "Ref" => Nat

/-- Filters that change each token by itself and share nothing. -/
inductive Plain where
  /-- lowercase_filter_new -/
  | lower (L : Loc)
  /-- mb_lowercase_filter_new -/
  | mbLower (L : MbLoc)
  /-- stem_filter_new: none is a NULL stemmer. -/
  | stem (f : Option (List Byte → List Byte))

/-- StopFilter, MappingFilter, HyphenFilter, StemFilter and TokenFilter, analysis.h 95–150. -/
inductive Kind where
  | plain (p : Plain)
  | stop (words : Ref)
  | map (mapper : Ref)
  | hyphen (isAlpha : Byte → Bool) (hf : Hf) (tk : Option Ref)

inductive Node where
  /-- A tokenizer: the text it was reset to, how many tokens it gave, its token. -/
  | tz (z : List Byte → Res (List Token)) (text : Option (List Byte)) (pos : Nat) (tok : Token) (chain : Ref)
  | filt (k : Kind) (sub : Ref) (chain : Ref)
  /-- The hash of stop words. -/
  | words (ws : List (List Byte))
  | mapper (m : MultiMap.Mapper)
  /-- Analyzer: current_ts. -/
  | ana (ts : Ref)
  /-- PerFieldAnalyzer: default_a, dict. -/
  | pfa (dflt : Ref) (dict : List (Nat × Ref))
  | gone

structure Obj where
  cnt : Nat
  node : Node

/-- What a filter owns beside the stream below it. -/
def Kind.refs : Kind → List Ref
  | .stop w => [w]
  | .map m => [m]
  | _ => []

/-- What an object owns. -/
def Obj.refs (o : Obj) : List Ref :=
  match o.node with
  | .filt k sub _ => k.refs ++ [sub]
  | .ana ts => [ts]
  | .pfa d dict => dict.map (·.2) ++ [d]
  | _ => []

abbrev Heap := List Obj

/-- Reading an object that is not there, or not any more, is undefined. -/
def get (h : Heap) (r : Ref) : Res Obj :=
  match h[r]? with
  | some o => if o.cnt = 0 then .ub else .ok o
  | none => .ub

def put (h : Heap) (r : Ref) (o : Obj) (nd : Node) : Heap := h.set r { o with node := nd }

/-- ts_new_i, tf_new_i, analyzer_new, per_field_analyzer_new, h_new_str, mulmap_new: a count of 1. -/
def alloc (h : Heap) (nd : Node) : Res (Ref × Heap) := .ok (h.length, h ++ [⟨1, nd⟩])

/-- REF, global.h 62. -/
def ref (h : Heap) (r : Ref) : Res Heap := get h r >>= fun o => .ok (h.set r { o with cnt := o.cnt + 1 })

def refAll : List Ref → Heap → Res Heap
  | [], h => .ok h
  | r :: rs, h => ref h r >>= refAll rs

/-- ts_deref, analysis.c 103–108, a_deref, 200–205, h_destroy, mulmap_destroy, and the destroy functions they call (208–214, 1097–1101, 1123–1127, 1205–1209,
1403–1409, 1647–1653): a list of references that are given up. -/
def drop : Nat → List Ref → Heap → Res Heap
  | _, [], h => .ok h
  | 0, _, _ => .ub
  | n + 1, r :: work, h => get h r >>= fun o =>
    if o.cnt = 1 then drop n (o.refs ++ work) (h.set r ⟨0, .gone⟩)
    else drop n work (h.set r { o with cnt := o.cnt - 1 })

/-- Every step takes one reference, so that one more step than there are references is enough. -/
def release (work : List Ref) (h : Heap) : Res Heap := drop ((h.map Obj.cnt).sum + 1) work h

/-- The token at an address that `next` gave. -/
def tokenAt (h : Heap) (a : Ref) : Res Token := get h a >>= fun o =>
  match o.node with
  | .tz _ _ _ tok _ => .ok tok
  | _ => .ub

/-- Writing to it. -/
def setToken (h : Heap) (a : Ref) (t : Token) : Res Heap := get h a >>= fun o =>
  match o.node with
  | .tz z text pos _ chain => .ok (put h a o (.tz z text pos t chain))
  | _ => .ub

/-- The token a filter makes of one token. -/
def one (r : Res (Option (Token × List Token))) : Res Token := r >>= fun o =>
  match o with
  | some (t, _) => .ok t
  | none => .ub

/-- lcf_next, mb_lcf_next, stemf_next on the token: analysis.c 1343–1388, 1411–1431. -/
def plainToken : Plain → Token → Res Token
  | .lower L, t => one (.ok (lcfNext L [t]))
  | .mbLower L, t => one (mbLcfNext L [t])
  | .stem (some f), t => one (.ok (stemNext f [t]))
  | .stem none, _ => .ub

/-- A filter of tokens one by one: the token is changed where it is. -/
def onToken (f : Token → Res Token) (o : Option Ref) (h : Heap) : Res (Option Ref × Heap) :=
  match o with
  | none => .ok (none, h)
  | some a => tokenAt h a >>= fun t => f t >>= fun t' => setToken h a t' >>= fun h => .ok (some a, h)

/-- The words of a stop filter. -/
def wordsAt (h : Heap) (w : Ref) : Res (List (List Byte)) := get h w >>= fun o =>
  match o.node with
  | .words ws => .ok ws
  | _ => .ub

def mapperAt (h : Heap) (m : Ref) : Res MultiMap.Mapper := get h m >>= fun o =>
  match o.node with
  | .mapper m => .ok m
  | _ => .ub

/-- The loop of sf_next, analysis.c 1136–1153. -/
def stopLoop (next : Heap → Res (Option Ref × Heap)) (words : List (List Byte)) : Nat → Int → Heap → Res (Option Ref × Heap)
  | 0, _, _ => .ub
  | n + 1, k, h => next h >>= fun r =>
    match r.1 with
    | none => .ok (none, r.2)
    | some a => tokenAt r.2 a >>= fun t =>
      if t.text ∈ words then stopLoop next words n (k + t.posInc) r.2
      else setToken r.2 a { t with posInc := t.posInc + k } >>= fun h => .ok (some a, h)

/-- Writing the fields of a hyphen filter. -/
def setHyphen (h : Heap) (r : Ref) (hf : Hf) (tk : Option Ref) : Res Heap := get h r >>= fun o =>
  match o.node with
  | .filt (.hyphen p _ _) sub chain => .ok (put h r o (.filt (.hyphen p hf tk) sub chain))
  | _ => .ub

/-- What hf_next does with the token at `a`: the token and the filter after it. -/
def hyphenStep (p : Byte → Bool) (hf : Hf) (sub : List Token) (r a : Ref) (h : Heap) : Res (Option Ref × Heap) :=
  tokenAt h a >>= fun t => hfNext p { hf with tk := some t } sub >>= fun o =>
  match o with
  | none => .ub
  | some (t', hf', _) => setToken h a t' >>= fun h => setHyphen h r hf' (some a) >>= fun h => .ok (some a, h)

/-- hf_next, analysis.c 1271–1328. -/
def hyphenNext (next : Heap → Res (Option Ref × Heap)) (p : Byte → Bool) (hf : Hf) (tk : Option Ref) (r : Ref) (h : Heap) : Res (Option Ref × Heap) :=
  if hf.pos < hf.len then
    match tk with
    | none => .ub
    | some a => hyphenStep p hf [] r a h
  else next h >>= fun q =>
    match q.1 with
    | none => setHyphen q.2 r hf none >>= fun h => .ok (none, h)
    | some a => tokenAt q.2 a >>= fun t => hyphenStep p hf [t] r a q.2

/-- `ts->next(ts)`: nt_next and the other tokenizers; sf_next, 1136–1153; mf_next, 1218–1229; hf_next, 1271–1328; lcf_next, mb_lcf_next, 1343–1388; stemf_next, 1411–1431. -/
def next : Nat → Ref → Heap → Res (Option Ref × Heap)
  | 0, _, _ => .ub
  | n + 1, r, h => get h r >>= fun o =>
    match o.node with
    | .tz z text pos _ chain =>
      match text with
      | none => .ub
      | some text => z text >>= fun ts =>
        match ts[pos]? with
        | none => .ok (none, h)
        | some t => .ok (some r, put h r o (.tz z (some text) (pos + 1) t chain))
    | .filt k sub _ =>
      match k with
      | .plain p => next n sub h >>= fun q => onToken (plainToken p) q.1 q.2
      | .stop w => wordsAt h w >>= fun ws => stopLoop (next n sub) ws n 0 h
      | .map m => next n sub h >>= fun q => mapperAt q.2 m >>= fun mm => onToken (fun t => one (mfNext mm [t])) q.1 q.2
      | .hyphen p hf tk => hyphenNext (next n sub) p hf tk r h
    | _ => .ub

/-- mulmap_compile when d_size is 0, analysis.c 1233–1235. -/
def compileAt (m : Ref) (h : Heap) : Res Heap := get h m >>= fun o =>
  match o.node with
  | .mapper mm =>
    match mm.dfa with
    | none => mm.compile >>= fun mm => .ok (put h m o (.mapper mm))
    | some _ => .ok h
  | _ => .ub

/-- `ts->reset(ts, text)`: ts_reset, 110–114; mb_ts_reset, 173–178; filter_reset, 1091–1095; mf_reset, 1231–1239. -/
def reset : Nat → Ref → List Byte → Heap → Res Heap
  | 0, _, _, _ => .ub
  | n + 1, r, text, h => get h r >>= fun o =>
    match o.node with
    | .tz z _ _ tok chain => .ok (put h r o (.tz z (some text) 0 tok chain))
    | .filt k sub _ =>
      match k with
      | .map m => compileAt m h >>= reset n sub text
      | _ => reset n sub text h
    | _ => .ub

/-- The address of the tokenizer at the bottom. -/
def chainOf (h : Heap) (r : Ref) : Res Ref := get h r >>= fun o =>
  match o.node with
  | .tz _ _ _ _ c => .ok c
  | .filt _ _ c => .ok c
  | _ => .ub

/-- `ts->clone_i(ts)`: ts_clone_size, 116–122; filter_clone_size, 1079–1084; sf_clone_i, 1129–1134; mf_clone_i, 1211–1216; hf_clone_i, 1265–1269, which copies the address of the token;
stemf_clone_i, 1433–1446. -/
def clone : Nat → Ref → Heap → Res (Ref × Heap)
  | 0, _, _ => .ub
  | n + 1, r, h => get h r >>= fun o =>
    match o.node with
    | .tz z text pos tok _ => alloc h (.tz z text pos tok h.length)
    | .filt k sub _ => clone n sub h >>= fun q => chainOf q.2 q.1 >>= fun c =>
      refAll k.refs q.2 >>= fun h => alloc h (.filt k q.1 c)
    | _ => .ub

/-- The filters a program can ask for. -/
inductive Make where
  | plain (p : Plain)
  | stop (ws : List (List Byte))
  /-- mapping_filter_new and mapping_filter_add for each. -/
  | mapping (maps : List (List Byte × List Byte))
  | hyphen (isAlpha : Byte → Bool)

/-- mapping_filter_add, analysis.c 1252–1257, one after the other. -/
def addMaps : MultiMap.Mapper → List (List Byte × List Byte) → Res MultiMap.Mapper
  | m, [] => .ok m
  | m, p :: ps => m.add p.1 p.2 >>= fun m => addMaps m ps

/-- lowercase_filter_new, mb_lowercase_filter_new, stem_filter_new, stop_filter_new_with_words, mapping_filter_new, hyphen_filter_new on the stream at `sub`. -/
def wrap (f : Make) (sub : Ref) (h : Heap) : Res (Ref × Heap) := chainOf h sub >>= fun c =>
  match f with
  | .plain p => alloc h (.filt (.plain p) sub c)
  | .stop ws => alloc h (.words ws) >>= fun q => alloc q.2 (.filt (.stop q.1) sub c)
  | .mapping maps => addMaps MultiMap.Mapper.new maps >>= fun m => alloc h (.mapper m) >>= fun q => alloc q.2 (.filt (.map q.1) sub c)
  | .hyphen p => alloc h (.filt (.hyphen p Hf.new none) sub c)

/-- a_standard_get_ts, analysis.c 215–223. -/
def anaGetTs (n : Nat) (a : Ref) (text : List Byte) (h : Heap) : Res (Ref × Heap) := get h a >>= fun o =>
  match o.node with
  | .ana ts => clone n ts h >>= fun q => reset n q.1 text q.2 >>= fun h => .ok (q.1, h)
  | _ => .ub

/-- h_get on the table of a per-field analyzer. -/
def lookup {α : Type} (f : Nat) : List (Nat × α) → Option α
  | [] => none
  | e :: es => if e.1 = f then some e.2 else lookup f es

/-- h_set on it. -/
def assign {α : Type} (f : Nat) (a : α) : List (Nat × α) → List (Nat × α)
  | [] => [(f, a)]
  | e :: es => if e.1 = f then (f, a) :: es else e :: assign f a es

/-- a_get_ts: a_standard_get_ts, or pfa_get_ts, analysis.c 1655–1663. The analyzers of the fields are not per-field analyzers themselves. -/
def getTs (n : Nat) (a : Ref) (field : Nat) (text : List Byte) (h : Heap) : Res (Ref × Heap) := get h a >>= fun o =>
  match o.node with
  | .pfa d dict =>
    match lookup field dict with
    | some a => anaGetTs n a text h
    | none => anaGetTs n d text h
  | _ => anaGetTs n a text h

/-- pfa_add_field, analysis.c 1671–1676: the analyzer there before is given up. -/
def addField (p : Ref) (field : Nat) (a : Ref) (h : Heap) : Res Heap := get h p >>= fun o =>
  match o.node with
  | .pfa d dict => release (lookup field dict).toList (put h p o (.pfa d (assign field a dict)))
  | _ => .ub

/-- mapping_filter_add, analysis.c 1252–1257, on a stream whose last filter is a mapping filter. -/
def addMapping (r : Ref) (pat rep : List Byte) (h : Heap) : Res Heap := get h r >>= fun o =>
  match o.node with
  | .filt (.map m) _ _ => get h m >>= fun om =>
    match om.node with
    | .mapper mm => mm.add pat rep >>= fun mm => .ok (put h m om (.mapper mm))
    | _ => .ub
  | _ => .ub

/-! ### Programs -/

/-- What a program does with its variables, by number; what makes something new puts it in a new variable. -/
inductive Op where
  /-- A new tokenizer. -/
  | tokenizer (z : List Byte → Res (List Token))
  /-- A filter over a stream, which it takes. -/
  | wrap (f : Make) (v : Nat)
  | clone (v : Nat)
  | reset (v : Nat) (text : List Byte)
  | next (v : Nat)
  | addMapping (v : Nat) (pat rep : List Byte)
  /-- analyzer_new, which takes the stream. -/
  | analyzer (v : Nat)
  /-- per_field_analyzer_new, which takes a reference to the analyzer. -/
  | perField (v : Nat)
  /-- pfa_add_field, which takes a reference to the analyzer. -/
  | addField (p : Nat) (field : Nat) (v : Nat)
  /-- a_get_ts. -/
  | getTs (v : Nat) (field : Nat) (text : List Byte)
  /-- REF -/
  | ref (v : Nat)
  /-- ts_deref, a_deref -/
  | deref (v : Nat)

structure Prog where
  heap : Heap
  vars : List Ref

def Prog.start : Prog := ⟨[], []⟩

/-- The token that a call of next gave, as the program reads it. -/
def readToken (q : Option Ref × Heap) : Res (Option Token) :=
  match q.1 with
  | none => .ok none
  | some a => tokenAt q.2 a >>= fun t => .ok (some t)

def Prog.new (p : Prog) (q : Ref × Heap) : Res (Prog × List (Option Token)) := .ok (⟨q.2, p.vars ++ [q.1]⟩, [])

def Prog.same (p : Prog) (h : Heap) : Res (Prog × List (Option Token)) := .ok (⟨h, p.vars⟩, [])

/-- One step; what it prints are the tokens that `next` gives. -/
def step (n : Nat) (op : Op) (p : Prog) : Res (Prog × List (Option Token)) :=
  match op with
  | .tokenizer z => alloc p.heap (.tz z none 0 ⟨[], 0, 0, 0⟩ p.heap.length) >>= p.new
  | .wrap f v => Res.ofOption p.vars[v]? >>= fun r => wrap f r p.heap >>= p.new
  | .clone v => Res.ofOption p.vars[v]? >>= fun r => clone n r p.heap >>= p.new
  | .reset v text => Res.ofOption p.vars[v]? >>= fun r => reset n r text p.heap >>= p.same
  | .next v => Res.ofOption p.vars[v]? >>= fun r => next n r p.heap >>= fun q => readToken q >>= fun t => .ok (⟨q.2, p.vars⟩, [t])
  | .addMapping v pat rep => Res.ofOption p.vars[v]? >>= fun r => addMapping r pat rep p.heap >>= p.same
  | .analyzer v => Res.ofOption p.vars[v]? >>= fun r => alloc p.heap (.ana r) >>= p.new
  | .perField v => Res.ofOption p.vars[v]? >>= fun r => alloc p.heap (.pfa r []) >>= p.new
  | .addField v f w => Res.ofOption p.vars[v]? >>= fun r => Res.ofOption p.vars[w]? >>= fun a => addField r f a p.heap >>= p.same
  | .getTs v f text => Res.ofOption p.vars[v]? >>= fun r => getTs n r f text p.heap >>= p.new
  | .ref v => Res.ofOption p.vars[v]? >>= fun r => ref p.heap r >>= p.same
  | .deref v => Res.ofOption p.vars[v]? >>= fun r => release [r] p.heap >>= p.same

def run (n : Nat) : List Op → Prog → Res (Prog × List (Option Token))
  | [], p => .ok (p, [])
  | op :: ops, p => step n op p >>= fun q => run n ops q.1 >>= fun q' => .ok (q'.1, q.2 ++ q'.2)

end Ferret.TS
