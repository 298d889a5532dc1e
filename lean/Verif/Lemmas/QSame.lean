import Verif.Model.QParse

/-!
Whether two queries are the same can be computed.
-/

namespace Ferret.QP

mutual
def Qry.same : Qry → Qry → Bool
  | .term f w, .term g x => f == g && w == x
  | .phrase f ps n, .phrase g qs m => f == g && ps == qs && n == m
  | .multi f ws, .multi g xs => f == g && ws == xs
  | .fuzzy f w n, .fuzzy g x m => f == g && w == x && n == m
  | .wild f w, .wild g x => f == g && w == x
  | .pre f w, .pre g x => f == g && w == x
  | .all, .all => true
  | .range f a b c d, .range g x y z u => f == g && a == x && b == y && c == z && d == u
  | .bool cs n, .bool ds m => sameAll cs ds && n == m
  | .boost b q, .boost c r => b == c && q.same r
  | _, _ => false
def sameAll : List (Occ × Qry) → List (Occ × Qry) → Bool
  | [], [] => true
  | c :: cs, d :: ds => sameOne c d && sameAll cs ds
  | _, _ => false
def sameOne : Occ × Qry → Occ × Qry → Bool
  | (o, q), (p, r) => o == p && q.same r
end

mutual
theorem Qry.same_eq : ∀ (a b : Qry), a.same b = true → a = b
  | .term f w, b, h => by cases b <;> simp_all [Qry.same]
  | .phrase f ps n, b, h => by cases b <;> simp_all [Qry.same]
  | .multi f ws, b, h => by cases b <;> simp_all [Qry.same]
  | .fuzzy f w n, b, h => by cases b <;> simp_all [Qry.same]
  | .wild f w, b, h => by cases b <;> simp_all [Qry.same]
  | .pre f w, b, h => by cases b <;> simp_all [Qry.same]
  | .all, b, h => by cases b <;> simp_all [Qry.same]
  | .range f x y z u, b, h => by cases b <;> simp_all [Qry.same]
  | .bool cs n, b, h => by
    cases b <;> simp only [Qry.same, Bool.false_eq_true] at h
    simp only [Bool.and_eq_true, beq_iff_eq] at h
    rw [sameAll_eq cs _ h.1, h.2]
  | .boost c q, b, h => by
    cases b <;> simp only [Qry.same, Bool.false_eq_true] at h
    simp only [Bool.and_eq_true, beq_iff_eq] at h
    rw [Qry.same_eq q _ h.2, h.1]
theorem sameAll_eq : ∀ (a b : List (Occ × Qry)), sameAll a b = true → a = b
  | [], b, h => by cases b <;> simp_all [sameAll]
  | c :: cs, b, h => by
    cases b <;> simp only [sameAll, Bool.false_eq_true] at h
    simp only [Bool.and_eq_true] at h
    rw [sameOne_eq c _ h.1, sameAll_eq cs _ h.2]
theorem sameOne_eq : ∀ (a b : Occ × Qry), sameOne a b = true → a = b
  | (o, q), (p, r), h => by
    simp only [sameOne, Bool.and_eq_true, beq_iff_eq] at h
    rw [Qry.same_eq q r h.2, h.1]
end

/-- The same outcome of a parse. -/
def sameReply : Res (List (List Fld) × Reply) → Res (List (List Fld) × Reply) → Bool
  | .ok (l, .query q), .ok (m, .query r) => l == m && q.same r
  | .ok (l, .parseError), .ok (m, .parseError) => l == m
  | .ok (l, .crash), .ok (m, .crash) => l == m
  | .ub, .ub => true
  | _, _ => false

theorem sameReply_eq {a b : Res (List (List Fld) × Reply)} (h : sameReply a b = true) : a = b := by
  match a, b with
  | .ok (l, .query q), .ok (m, .query r) =>
    simp only [sameReply, Bool.and_eq_true, beq_iff_eq] at h
    rw [Qry.same_eq q r h.2, h.1]
  | .ok (l, .query _), .ok (m, .parseError) => cases h
  | .ok (l, .query _), .ok (m, .crash) => cases h
  | .ok (l, .parseError), .ok (m, .query _) => cases h
  | .ok (l, .parseError), .ok (m, .crash) => cases h
  | .ok (l, .crash), .ok (m, .query _) => cases h
  | .ok (l, .crash), .ok (m, .parseError) => cases h
  | .ok (l, .parseError), .ok (m, .parseError) => simp only [sameReply, beq_iff_eq] at h; rw [h]
  | .ok (l, .crash), .ok (m, .crash) => simp only [sameReply, beq_iff_eq] at h; rw [h]
  | .ub, .ub => rfl
  | .ok (_, .query _), .ub => cases h
  | .ok (_, .query _), .raise _ => cases h
  | .ok (_, .parseError), .ub => cases h
  | .ok (_, .parseError), .raise _ => cases h
  | .ok (_, .crash), .ub => cases h
  | .ok (_, .crash), .raise _ => cases h
  | .raise _, _ => cases h
  | .ub, .ok _ => cases h
  | .ub, .raise _ => cases h

end Ferret.QP
