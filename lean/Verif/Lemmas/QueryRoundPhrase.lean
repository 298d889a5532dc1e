import Verif.Lemmas.QueryRoundLeaf

/-! Reading the texts of phrases back. -/

namespace Ferret.QRound

open Ferret.Spec
open Ferret.QP

variable {cfg : Cfg} {qlen : Nat}

/-- The words of a place. -/
def wordSpots : List QWord → List QSpot
  | [] => []
  | w :: ws => .next w :: ws.map .alt

/-- The places behind a place at `last`. -/
def restSpots (last : Int) : List (Int × List QWord) → List QSpot
  | [] => []
  | (p, ws) :: ps => List.replicate (p - last - 1).toNat .gap ++ (wordSpots ws ++ restSpots p ps)

/-- So, with the words that are allowed. -/
def fillPlaces (last : Int) : List (Int × List QWord) → List (List QWord)
  | [] => []
  | (p, ws) :: ps => List.replicate (p - last - 1).toNat [] ++ ws :: fillPlaces p ps

/-- Places in order behind `last`, with words that need no escapes. -/
def Rising (cfg : Cfg) (last : Int) : List (Int × List QWord) → Prop
  | [] => True
  | (p, ws) :: ps => last < p ∧ ws ≠ [] ∧ (∀ w ∈ ws, readsPlain cfg.keywords w ∧ ∀ c ∈ w, c ∉ qEscaped) ∧ Rising cfg p ps

theorem rising_of : ∀ {last : Int} {ps : List (Int × List QWord)}, (∀ p ∈ ps, last < p.1) → ps.Pairwise (fun x y => x.1 < y.1) →
    (∀ p ∈ ps, p.2 ≠ [] ∧ ∀ w ∈ p.2, readsPlain cfg.keywords w ∧ ∀ c ∈ w, c ∉ qEscaped) → Rising cfg last ps
  | _, [], _, _, _ => trivial
  | _, (p, ws) :: ps, h1, h2, h3 =>
    ⟨h1 (p, ws) (by simp), (h3 (p, ws) (by simp)).1, (h3 (p, ws) (by simp)).2,
      rising_of (List.pairwise_cons.1 h2).1 (List.pairwise_cons.1 h2).2 (fun q hq => h3 q (List.mem_cons_of_mem _ hq))⟩

/-! ### Reading -/

theorem stops_alts (ws : List QWord) {x : List Char} (hx : Stops x) : Stops (ws.flatMap (['|'] ++ ·) ++ x) := by
  cases ws with
  | nil => exact hx
  | cons w ws => exact Or.inr ⟨'|', w ++ ws.flatMap (['|'] ++ ·) ++ x, by simp, by decide⟩

theorem reads_alts {x : List Char} {ts : List QTok} (h : Reads cfg.keywords qlen x ts) (hs : Stops x) : ∀ ws : List QWord, (∀ w ∈ ws, readsPlain cfg.keywords w) →
    Reads cfg.keywords qlen (ws.flatMap (['|'] ++ ·) ++ x) ((ws.map QSpot.alt).flatMap QSpot.written ++ ts)
  | [], _ => h
  | w :: ws, hw => by
    have h1 := reads_append (reads_word (qlen := qlen) (hw w (by simp))) (reads_alts h hs ws fun v hv => hw v (List.mem_cons_of_mem _ hv)) (stops_alts ws hs)
    obtain ⟨c, r, e, hc⟩ := (hw w (by simp)).1
    rw [e] at h1 ⊢
    have := reads_bar (ne_of_plain hc).2 h1
    simpa [QSpot.written] using this

theorem reads_words {x : List Char} {ts : List QTok} (h : Reads cfg.keywords qlen x ts) (hs : Stops x) {w : QWord} {ws : List QWord}
    (hw : ∀ v ∈ w :: ws, readsPlain cfg.keywords v) : Reads cfg.keywords qlen (joinedBy ['|'] (w :: ws) ++ x) (.word w :: ((ws.map QSpot.alt).flatMap QSpot.written ++ ts)) := by
  rw [QText.joinedBy_cons, List.append_assoc]
  exact reads_append (reads_word (hw w (by simp))) (reads_alts h hs ws fun v hv => hw v (List.mem_cons_of_mem _ hv)) (stops_alts ws hs)

theorem reads_gaps {x : List Char} {ts : List QTok} (h : Reads cfg.keywords qlen x ts) : ∀ n : Nat,
    Reads cfg.keywords qlen ((List.replicate n "<> ".toList).flatten ++ x) ((List.replicate n QSpot.gap).flatMap QSpot.written ++ ts)
  | 0 => h
  | n + 1 => by
    rw [List.replicate_succ, List.replicate_succ, List.flatten_cons, List.flatMap_cons, List.append_assoc, List.append_assoc]
    exact reads_mark (c := '<') (by decide) (by decide) (reads_mark (c := '>') (by decide) (by decide) (reads_blank (reads_gaps h n)))

theorem placesText_cons {last p : Int} (h : last < p) (ws : List QWord) (ps : List (Int × List QWord)) :
    placesText last ((p, ws) :: ps) = ' ' :: ((List.replicate (p - last - 1).toNat "<> ".toList).flatten ++ (joinedBy ['|'] ws ++ placesText p ps)) := by
  rw [placesText, if_neg (by omega)]
  simp only [List.cons_append, List.append_assoc]

theorem reads_places {x : List Char} {ts : List QTok} (h : Reads cfg.keywords qlen x ts) (hs : Stops x) : ∀ {last : Int} {ps : List (Int × List QWord)}, Rising cfg last ps →
    Reads cfg.keywords qlen (placesText last ps ++ x) ((restSpots last ps).flatMap QSpot.written ++ ts) ∧ Stops (placesText last ps ++ x)
  | _, [], _ => ⟨h, hs⟩
  | last, (p, ws) :: ps, hr => by
    obtain ⟨h1, h2, h3, h4⟩ := hr
    obtain ⟨i1, i2⟩ := reads_places h hs h4
    rw [placesText_cons h1]
    refine ⟨?_, Or.inr ⟨' ', _, rfl, by decide⟩⟩
    cases ws with
    | nil => exact absurd rfl h2
    | cons w ws =>
      have := reads_blank (reads_gaps (reads_words i1 i2 (fun v hv => (h3 v hv).1)) (p - last - 1).toNat)
      simpa [restSpots, wordSpots, QSpot.written] using this

/-! ### Cleaning -/

theorem inner_escaped {w : QWord} (h : ∀ c ∈ w, c ∉ qEscaped) : Inner w :=
  inner_chars fun c hc => Or.inr ⟨(not_escaped (h c hc)).2.2.2, (not_escaped (h c hc)).2.1⟩

theorem inner_words {ws : List QWord} (h : ∀ w ∈ ws, ∀ c ∈ w, c ∉ qEscaped) : Inner (joinedBy ['|'] ws) := by
  cases ws with
  | nil => exact inner_nil
  | cons w ws =>
    rw [QText.joinedBy_cons]
    refine (inner_escaped (h w (by simp))).append (Inner.flat fun v hv => ?_)
    exact Inner.append (inner_one (Or.inl rfl)) (inner_escaped (h v (List.mem_cons_of_mem _ hv)))

theorem inner_gaps : ∀ n : Nat, Inner (List.replicate n "<> ".toList).flatten
  | 0 => inner_nil
  | n + 1 => by
    rw [List.replicate_succ, List.flatten_cons]
    exact inner_gap.append (inner_gaps n)

theorem inner_places : ∀ {last : Int} {ps : List (Int × List QWord)}, Rising cfg last ps → Inner (placesText last ps)
  | _, [], _ => inner_nil
  | last, (p, ws) :: ps, h => by
    rw [placesText_cons h.1]
    refine Inner.append (a := [' ']) (inner_one (Or.inr (by decide))) ((inner_gaps _).append ((inner_words fun w hw => (h.2.2.1 w hw).2).append (inner_places h.2.2.2)))

/-! ### What parsing needs -/

theorem Local.cons {t : QTok} {ts : List QTok} (h : Local cfg ts) (h1 : ∀ w, t = .word w ∨ t = .wild w → w.length ≤ 253)
    (h2 : t ≠ .sym '>') (h3 : t ≠ .sym '"') (h4 : t ≠ .sym '[' ∧ t ≠ .sym '{') : Local cfg (t :: ts) :=
  ⟨h1, fun e => absurd e h2, fun e => absurd e h3, fun e => by rcases e with e | e; exact absurd e h4.1; exact absurd e h4.2, h⟩

theorem Local.word {w : QWord} (hw : readsPlain cfg.keywords w) {ts : List QTok} (h : Local cfg ts) : Local cfg (.word w :: ts) :=
  h.cons (by intro v hv; rcases hv with hv | hv <;> cases hv; exact hw.2.2.2) (by simp) (by simp) (by simp)

theorem local_alts {ts : List QTok} (h : Local cfg ts) : ∀ ws : List QWord, (∀ w ∈ ws, readsPlain cfg.keywords w) →
    Local cfg ((ws.map QSpot.alt).flatMap QSpot.written ++ ts)
  | [], _ => h
  | w :: ws, hw =>
    (((local_alts h ws fun v hv => hw v (List.mem_cons_of_mem _ hv)).word (hw w (by simp))).cons (by simp) (by simp) (by simp) (by simp))

theorem local_gaps {ts : List QTok} (h : Local cfg ts) (hb : ts.head? ≠ some (.sym '|')) : ∀ n : Nat,
    Local cfg ((List.replicate n QSpot.gap).flatMap QSpot.written ++ ts) ∧ ((List.replicate n QSpot.gap).flatMap QSpot.written ++ ts).head? ≠ some (.sym '|')
  | 0 => ⟨h, hb⟩
  | n + 1 => by
    rw [List.replicate_succ, List.flatMap_cons, List.append_assoc]
    obtain ⟨i1, i2⟩ := local_gaps h hb n
    refine ⟨Local.cons (t := .sym '<') ?_ (by simp) (by simp) (by simp) (by simp), by simp [QSpot.written]⟩
    exact ⟨by simp, fun _ => i2, by simp, by simp, i1⟩

theorem local_places {ts : List QTok} (h : Local cfg ts) (hb : ts.head? ≠ some (.sym '|')) : ∀ {last : Int} {ps : List (Int × List QWord)}, Rising cfg last ps →
    Local cfg ((restSpots last ps).flatMap QSpot.written ++ ts) ∧ ((restSpots last ps).flatMap QSpot.written ++ ts).head? ≠ some (.sym '|')
  | _, [], _ => ⟨h, hb⟩
  | last, (p, ws) :: ps, hr => by
    obtain ⟨h1, h2, h3, h4⟩ := hr
    obtain ⟨i1, i2⟩ := local_places h hb h4
    cases ws with
    | nil => exact absurd rfl h2
    | cons w ws =>
      have := local_gaps (Local.word (h3 w (by simp)).1 (local_alts i1 ws fun v hv => (h3 v (List.mem_cons_of_mem _ hv)).1)) (by simp) (p - last - 1).toNat
      simpa [restSpots, wordSpots, QSpot.written] using this

/-! ### What is meant -/

theorem placesRest_gaps (ss : List QSpot) : ∀ (n : Nat) (acc : List (List QWord)),
    placesRest acc (List.replicate n QSpot.gap ++ ss) = placesRest (acc ++ List.replicate n []) ss
  | 0, acc => by simp
  | n + 1, acc => by
    rw [List.replicate_succ, List.cons_append, placesRest, placesRest_gaps ss n, List.append_assoc]; rfl

theorem placesRest_alts (ss : List QSpot) : ∀ (ws : List QWord) (acc : List (List QWord)) (p : List QWord),
    placesRest (acc ++ [p]) (ws.map QSpot.alt ++ ss) = placesRest (acc ++ [p ++ ws]) ss
  | [], acc, p => by simp
  | w :: ws, acc, p => by
    rw [List.map_cons, List.cons_append, placesRest]
    have : (acc ++ [p]).dropLast ++ (acc ++ [p]).getLast?.toList.map (· ++ [w]) = acc ++ [p ++ [w]] := by simp
    rw [this, placesRest_alts ss ws]
    simp

theorem placesRest_rest : ∀ (ps : List (Int × List QWord)) (last : Int) (acc : List (List QWord)), (∀ p ∈ ps, p.2 ≠ []) →
    placesRest acc (restSpots last ps) = acc ++ fillPlaces last ps
  | [], _, acc, _ => by simp [restSpots, fillPlaces, placesRest]
  | (p, ws) :: ps, last, acc, h => by
    cases ws with
    | nil => exact absurd rfl (h (p, []) (by simp))
    | cons w ws =>
      rw [restSpots, placesRest_gaps, wordSpots, List.cons_append, placesRest, placesRest_alts, placesRest_rest ps _ _ fun q hq => h q (List.mem_cons_of_mem _ hq), fillPlaces]
      simp

theorem filterMap_some' {α : Type} (l : List α) : l.filterMap some = l := by
  induction l with
  | nil => rfl
  | cons a l ih => rw [List.filterMap_cons, ih]

theorem kept_fill : ∀ (ps : List (Int × List QWord)) (last : Int) (i : Nat), (i : Int) = last + 1 → Rising cfg last ps →
    placesKept some i (fillPlaces last ps) = ps.map fun p => (p.1.toNat, p.2)
  | [], _, _, _, _ => rfl
  | (p, ws) :: ps, last, i, hi, h => by
    obtain ⟨h1, h2, h3, h4⟩ := h
    rw [fillPlaces, placesKept_append, placesKept_gaps, List.nil_append, placesKept, List.length_replicate,
      kept_fill ps p _ (by omega) h4, filterMap_some']
    have : i + (p - last - 1).toNat = p.toNat := by omega
    rw [this]
    cases ws with
    | nil => exact absurd rfl h2
    | cons w ws => simp

theorem lost_some (ps : List (List QWord)) : placesLost some ps = 0 := by
  induction ps with
  | nil => rfl
  | cons p ps ih =>
    rw [placesLost, ih, filterMap_some', if_neg (fun h => h.1 h.2.1)]

theorem written_fill : ∀ (ps : List (Int × List QWord)) (last : Int), (∀ p ∈ ps, p.2 ≠ []) →
    (fillPlaces last ps).filter (fun p => !p.isEmpty) = ps.map Prod.snd
  | [], _, _ => rfl
  | (p, ws) :: ps, last, h => by
    have hws : ws ≠ [] := h (p, ws) (by simp)
    rw [fillPlaces, List.filter_append, List.filter_cons, if_pos (by simpa using hws), written_fill ps p fun q hq => h q (List.mem_cons_of_mem _ hq)]
    have : (List.replicate (p - last - 1).toNat ([] : List QWord)).filter (fun p => !p.isEmpty) = [] := by simp
    rw [this]; rfl

theorem mem_fill : ∀ (ps : List (Int × List QWord)) (last : Int) (x : List QWord), x ∈ fillPlaces last ps → x = [] ∨ ∃ p ∈ ps, p.2 = x
  | [], _, x, h => by simp [fillPlaces] at h
  | (p, ws) :: ps, last, x, h => by
    rw [fillPlaces, List.mem_append] at h
    rcases h with h | h
    · exact Or.inl (List.mem_replicate.1 h).2
    · rcases List.mem_cons.1 h with h | h
      · exact Or.inr ⟨(p, ws), by simp, h.symm⟩
      · rcases mem_fill ps p x h with h | ⟨q, hq, e⟩
        · exact Or.inl h
        · exact Or.inr ⟨q, List.mem_cons_of_mem _ hq, e⟩

/-! ### Phrases -/

/-- The slop of a phrase. -/
def slopOf (slop : Int) : Option QWord := if slop = 0 then none else some (intText slop)

/-- A phrase as a leaf. -/
def phraseLeaf (ps : List (Int × List QWord)) (slop : Int) : QLeaf :=
  match ps with
  | (p, w :: ws) :: ps => .phrase (some w) (ws.map .alt ++ restSpots p ps) (slopOf slop)
  | _ => .noPhrase none

theorem phrase_piece {p : Int} {w : QWord} {ws : List QWord} {ps : List (Int × List QWord)} {slop : Int} (h0 : 0 ≤ slop) (h1 : slop < 1000000000)
    (hr : Rising cfg (-1) ((p, w :: ws) :: ps)) : Piece cfg qlen (phraseText ((p, w :: ws) :: ps) slop) (phraseLeaf ((p, w :: ws) :: ps) slop).written := by
  obtain ⟨-, -, h3, h4⟩ := hr
  have hslop : Tail cfg qlen (if slop = 0 then [] else '~' :: intText slop) (writtenSlop (slopOf slop)) := by
    by_cases hz : slop = 0
    · rw [if_pos hz, slopOf, if_pos hz]; exact tail_nil
    · rw [if_neg hz, slopOf, if_neg hz]; exact tail_mark (Or.inr rfl) (slop_read h0 h1).1
  have hend : Reads cfg.keywords qlen ('"' :: (if slop = 0 then [] else '~' :: intText slop)) (.sym '"' :: writtenSlop (slopOf slop)) :=
    reads_mark (by decide) (by decide) hslop.reads
  have hse : Stops ('"' :: (if slop = 0 then [] else '~' :: intText slop)) := Or.inr ⟨'"', _, rfl, by decide⟩
  obtain ⟨i1, i2⟩ := reads_places hend hse h4
  have h5 := reads_mark (c := '"') (by decide) (by decide) (reads_words i1 i2 (w := w) (ws := ws) (fun v hv => (h3 v hv).1))
  have etext : phraseText ((p, w :: ws) :: ps) slop = '"' :: (joinedBy ['|'] (w :: ws) ++ (placesText p ps ++ '"' :: (if slop = 0 then [] else '~' :: intText slop))) := by
    simp only [phraseText, reduceCtorEq, false_or, List.cons_append, List.append_assoc, List.nil_append]
  have etok : (phraseLeaf ((p, w :: ws) :: ps) slop).written =
      .sym '"' :: .word w :: ((ws.map QSpot.alt).flatMap QSpot.written ++ ((restSpots p ps).flatMap QSpot.written ++ .sym '"' :: writtenSlop (slopOf slop))) := by
    simp [phraseLeaf, QLeaf.written, writtenFirst]
  rw [etext, etok]
  refine ⟨h5, ?_, ?_, ⟨by simp, by simp [Starts]⟩, ⟨'"', _, rfl, by decide⟩⟩
  · have := (clear_quotes ((inner_words (ws := w :: ws) fun v hv => (h3 v hv).2).append (inner_places h4))).append hslop.clear
    simpa using this
  · intro rest hs hl
    have e1 : Local cfg (.sym '"' :: (writtenSlop (slopOf slop) ++ rest)) := by
      by_cases hz : slop = 0
      · rw [slopOf, if_pos hz]
        refine ⟨by simp, by simp, ?_, by simp, hl⟩
        intro _ v r e
        have e : rest = .sym '~' :: .word v :: r := e
        rw [e] at hs
        exact absurd rfl hs.2
      · rw [slopOf, if_neg hz]
        refine ⟨by simp, by simp, ?_, by simp, ?_⟩
        · intro _ v r e
          cases e
          exact (slop_read (keys := cfg.keywords) h0 h1).2.2
        · exact (hl.word (slop_read h0 h1).1).cons (by simp) (by simp) (by simp) (by simp)
    have e2 := (local_places e1 (by simp) h4).1
    have e3 := Local.word (h3 w (by simp)).1 (local_alts e2 ws fun v hv => (h3 v (List.mem_cons_of_mem _ hv)).1)
    have : Local cfg (.sym '"' :: .word w :: ((ws.map QSpot.alt).flatMap QSpot.written ++ ((restSpots p ps).flatMap QSpot.written ++ (.sym '"' :: (writtenSlop (slopOf slop) ++ rest))))) :=
      ⟨by simp, by simp, by simp, by simp, e3⟩
    simpa using this

theorem phrase_meant {f : Fld} {w : QWord} {ws : List QWord} {ps : List (Int × List QWord)} {slop : Int} (h0 : 0 ≤ slop) (h1 : slop < 1000000000)
    (hr : Rising cfg (-1) ((0, w :: ws) :: ps)) (hw : ∀ p ∈ (((0 : Int), w :: ws) :: ps), ∀ v ∈ p.2, readsSame cfg f v) (h2 : ps ≠ []) :
    ∃ qs, (lang cfg).leaf [f] (phraseLeaf ((0, w :: ws) :: ps) slop) = some (.phrase f qs slop) ∧
      (absolute 0 qs).map (fun p => ((p.1 : Int), p.2)) = (0, w :: ws) :: ps := by
  have hgood := ((phrase_piece (qlen := 0) h0 h1 hr).fine [] ⟨by simp, by simp⟩ trivial).good
  rw [List.append_nil] at hgood
  have eleaf : phraseLeaf ((0, w :: ws) :: ps) slop = .phrase (some w) (ws.map .alt ++ restSpots 0 ps) (slopOf slop) := by rw [phraseLeaf]
  rw [eleaf] at hgood ⊢
  have hne : ∀ {l : Int} {qs : List (Int × List QWord)}, Rising cfg l qs → ∀ p ∈ qs, p.2 ≠ [] := by
    intro l qs
    induction qs generalizing l with
    | nil => intro _ p hp; cases hp
    | cons q qs ih =>
      intro h p hp
      rcases List.mem_cons.1 hp with rfl | hp
      · exact h.2.1
      · exact ih h.2.2.2 p hp
  have hnn : ∀ {l : Int} {qs : List (Int × List QWord)}, -1 ≤ l → Rising cfg l qs → ∀ p ∈ qs, 0 ≤ p.1 := by
    intro l qs
    induction qs generalizing l with
    | nil => intro _ _ p hp; cases hp
    | cons q qs ih =>
      intro hl h p hp
      have := h.1
      rcases List.mem_cons.1 hp with rfl | hp
      · omega
      · exact ih (by omega) h.2.2.2 p hp
  have hpl : phrasePlaces (some w) (ws.map .alt ++ restSpots 0 ps) = fillPlaces (-1) ((0, w :: ws) :: ps) := by
    unfold phrasePlaces
    rw [show [(some w : Option QWord).toList] = [] ++ [[w]] from rfl, placesRest_alts, placesRest_rest _ _ _ (hne hr.2.2.2)]
    rfl
  have hsv : slopValue (slopOf slop) slop := by
    unfold slopOf
    split
    · rename_i h; exact h
    · exact (slop_read (keys := false) h0 h1).2.1
  obtain ⟨qs, b, e1, e2⟩ := Props.c78_phrase_partial cfg f (some w) (ws.map .alt ++ restSpots 0 ps) (slopOf slop) slop hgood.tame hsv some
    (by
      intro p hp v hv
      rw [hpl] at hp
      rcases mem_fill _ _ _ hp with rfl | ⟨q, hq, rfl⟩
      · cases hv
      · obtain ⟨-, i, e, hi⟩ := hw q hq v hv
        exact Or.inr ⟨v, i, e, hi, rfl⟩)
    (by
      unfold writtenPlaces
      rw [hpl, written_fill _ _ (hne hr)]
      cases ps with
      | nil => exact absurd rfl h2
      | cons p ps => simp)
  rw [lost_some] at e1
  rw [hpl, kept_fill _ (-1) 0 (by omega) hr] at e2
  have hb : b = 0 := by
    cases qs with
    | nil => simp [absolute] at e2
    | cons q qs =>
      obtain ⟨d, x⟩ := q
      simp [absolute] at e2
      omega
  subst hb
  refine ⟨qs, by simpa using e1, ?_⟩
  rw [e2, List.map_map]
  conv => rhs; rw [← List.map_id ((0, w :: ws) :: ps)]
  refine List.map_congr_left fun p hp => ?_
  have := hnn (by omega) hr p hp
  obtain ⟨a, b⟩ := p
  simp at this ⊢
  omega

/-- Sorting places that are in order changes nothing. -/
theorem sorts_same {order : List (Int × List QWord) → List (Int × List QWord)} (h : SortsPlaces order) {ps : List (Int × List QWord)}
    (hp : ps.Pairwise (fun x y => x.1 < y.1)) : order ps = ps := by
  have hinj : ∀ (l : List (Int × List QWord)), l.Pairwise (fun x y => x.1 < y.1) → ∀ a ∈ l, ∀ b ∈ l, a.1 = b.1 → a = b := by
    intro l
    induction l with
    | nil => intro _ a ha; cases ha
    | cons x l ih =>
      intro hl a ha b hb e
      rw [List.pairwise_cons] at hl
      rcases List.mem_cons.1 ha with ea | ha' <;> rcases List.mem_cons.1 hb with eb | hb'
      · rw [ea, eb]
      · have := hl.1 b hb'; rw [← ea] at this; omega
      · have := hl.1 a ha'; rw [← eb] at this; omega
      · exact ih hl.2 a ha' b hb' e
  refine List.Perm.eq_of_pairwise ?_ (h ps).2 (hp.imp fun h => Int.le_of_lt h) (h ps).1
  intro a b ha hb h1 h2
  exact hinj ps hp a ((h ps).1.mem_iff.1 ha) b hb (by omega)

end Ferret.QRound
