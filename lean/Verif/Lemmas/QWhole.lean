import Verif.Lemmas.QDriveTree

/-!
The query parser reads whole texts as what their trees mean.
-/

namespace Ferret.QP
open Ferret.Spec

/-- More turns change nothing once the parser has ended. -/
theorem parse_more {cfg : Cfg} {qlen : Nat} : ∀ (n : Nat) (p : PS) (e : End) (m : Nat),
    parse cfg qlen n p = .ok e → e ≠ .loop → parse cfg qlen (n + m) p = .ok e := by
  intro n
  induction n with
  | zero => intro p e m h he; rw [parse] at h; cases h; exact absurd rfl he
  | succ n ih =>
    intro p e m h he
    rw [show n + 1 + m = (n + m) + 1 by omega, parse]
    rw [parse] at h
    obtain ⟨o, h1, h2⟩ := Res.bind_eq_ok.1 h
    rw [h1, Res.ok_bind]
    match o with
    | .next p' => exact ih p' e m h2 he
    | .accept p' => exact h2
    | .error p' => exact h2
    | .full p' => exact h2
    | .failed p' => exact h2

/-- The parser ends at one place only. -/
theorem parse_once {cfg : Cfg} {qlen n m : Nat} {p : PS} {e e' : End} (h : parse cfg qlen n p = .ok e)
    (h' : parse cfg qlen m p = .ok e') (he : e ≠ .loop) (he' : e' ≠ .loop) : e = e' := by
  have h1 := parse_more n p e m h he
  have h2 := parse_more m p e' n h' he'
  rw [Nat.add_comm, h2] at h1
  cases h1
  rfl

theorem accept_at : action (pactOf 12) (translate .eof) = some 39 ∧ pactOf 12 ≠ -30 := by decide +kernel

/-- Parsing a text that is written as a tree ends with what the tree means. -/
theorem parse_tree {cfg : Cfg} {qlen : Nat} {s : List Char} {ts : List LexTok}
    (hlow : ∀ c, cfg.lower (cfg.lower c) = cfg.lower c) (hl : Lexed cfg.keywords qlen s ts) (T : QClauses)
    (hT : ts.map LexTok.spec = T.written) (hg : Good cfg T.written) (hap : T.apart = true) (hroom : T.room < 9999)
    {fuel : Nat} (hf : 20 * ts.length + 20 ≤ fuel) :
    ∃ p, parse cfg qlen fuel ⟨[(0, .none)], none, s, 0, [cfg.defFields], none⟩ = .ok (.accept p) ∧
      p.fields = [cfg.defFields] ∧ p.result = boolOf (T.meant (lang cfg) cfg.defFields) := by
  have hsh := hl.shaped
  have E : Env cfg ts := ⟨fun t h => (hsh t h).1, fun t h => (hsh t h).2, by rw [hT]; exact hg.tame, hlow⟩
  obtain ⟨e, e1, e2⟩ := parse_start E hl (n := fuel) hf
  have a0 : At cfg qlen ⟨[(0, .none)], none, s, 0, [cfg.defFields], none⟩ [(0, .none)] [cfg.defFields] none 0
      (ts ++ []) := ⟨rfl, rfl, rfl, Or.inl ⟨rfl, rfl, by rw [List.append_nil]; exact hl⟩⟩
  obtain ⟨p1, r1, a1⟩ := run_clauses hlow T _ _ 0 ts 0 _ [] hg hap (by decide) (fun _ => by decide) hsh hT a0
    (by decide) (by simp; omega)
  rw [show cur [cfg.defFields] = cfg.defFields from rfl] at a1
  obtain ⟨p2, r2, a2⟩ := a1.redAt (r := 3) (by decide +kernel) [(13, _)] rfl rfl rfl (by decide) (g := 12)
    (by decide +kernel) (v := .q (boolOf (T.meant (lang cfg) cfg.defFields))) (F' := [cfg.defFields])
    (res' := boolOf (T.meant (lang cfg) cfg.defFields)) (fun p' e1 e2 e3 => by
      rw [← e1, ← getBoolQ_eq]; rfl) (by decide)
  obtain ⟨u, p3, h3, a3, -⟩ := a2.look
  have hstep : step cfg qlen p2 = .ok (.accept p3) := by
    unfold step
    rw [a2.stack]
    simp only [pactOf_eq (show 12 < 80 by decide), defOf_eq (show 12 < 80 by decide), Res.ofOption, Res.ok_bind,
      if_neg accept_at.2, h3]
    rw [show headTok [] = Tok.eof from rfl, accept_at.1]
    rfl
  obtain ⟨k, hk⟩ := r1.trans r2
  have hend : parse cfg qlen (1 + k) ⟨[(0, .none)], none, s, 0, [cfg.defFields], none⟩ = .ok (.accept p3) := by
    rw [hk, parse, hstep]
    rfl
  have he : e ≠ .loop := by rintro rfl; exact e2
  have := parse_once e1 hend he (by simp)
  subst this
  exact ⟨p3, e1, a3.fields, a3.result⟩

end Ferret.QP
