import Verif.Model.Search

/-! A queue of images behaves as the queue of what they are images of. -/

namespace Ferret.PQ
open Ferret

variable {α β : Type}

/-- The images of the elements. -/
def PQ.map (f : α → β) (q : PQ α) : PQ β := ⟨q.heap.map f, q.capa, q.memCapa⟩

/-- The outcome of an image. -/
def mapR (f : α → β) (r : Res α) : Res β := r >>= fun a => .ok (f a)

@[simp] theorem mapR_ok (f : α → β) (a : α) : mapR f (.ok a) = .ok (f a) := rfl
@[simp] theorem mapR_ub (f : α → β) : mapR f .ub = .ub := rfl
@[simp] theorem mapR_raise (f : α → β) (e : Err) : mapR f (.raise e) = .raise e := rfl

theorem slot_map (f : α → β) (h : List α) (i : Nat) : slot (h.map f) i = mapR f (slot h i) := by
  unfold slot
  cases i with
  | zero => rfl
  | succ k => simp only [List.getElem?_map]; cases h[k]? <;> rfl

theorem put_map (f : α → β) (h : List α) (i : Nat) (a : α) : put (h.map f) i (f a) = (put h i a).map f := by
  unfold put; rw [List.map_set]

theorem upLoop_map (f : α → β) (lt : β → β → Bool) (node : α) : ∀ (n : Nat) (h : List α) (i : Nat),
    upLoop lt (f node) n (h.map f) i = mapR (List.map f) (upLoop (fun a b => lt (f a) (f b)) node n h i)
  | 0, _, _ => rfl
  | n + 1, h, i => by
    simp only [upLoop]
    split
    · rw [slot_map]
      cases slot h (i / 2) with
      | ok p =>
        simp only [mapR_ok, Res.ok_bind]
        split
        · rw [put_map]; exact upLoop_map f lt node n _ _
        · rw [put_map]; rfl
      | raise e => rfl
      | ub => rfl
    · rw [put_map]; rfl

theorem up_map (f : α → β) (lt : β → β → Bool) (h : List α) : up lt (h.map f) = mapR (List.map f) (up (fun a b => lt (f a) (f b)) h) := by
  unfold up
  rw [slot_map, List.length_map]
  cases slot h h.length with
  | ok p => simp only [mapR_ok, Res.ok_bind]; exact upLoop_map f lt p _ _ _
  | raise e => rfl
  | ub => rfl

theorem childOf_map (f : α → β) (lt : β → β → Bool) (h : List α) (i : Nat) :
    childOf lt (h.map f) i = childOf (fun a b => lt (f a) (f b)) h i := by
  unfold childOf
  rw [List.length_map, slot_map, slot_map]
  cases slot h (2 * i + 1) with
  | ok p => cases slot h (2 * i) <;> rfl
  | raise e => rfl
  | ub => rfl

theorem downLoop_map (f : α → β) (lt : β → β → Bool) (node : α) : ∀ (n : Nat) (h : List α) (i : Nat),
    downLoop lt (f node) n (h.map f) i = mapR (List.map f) (downLoop (fun a b => lt (f a) (f b)) node n h i)
  | 0, _, _ => rfl
  | n + 1, h, i => by
    simp only [downLoop]
    rw [childOf_map]
    cases childOf (fun a b => lt (f a) (f b)) h i with
    | ok j =>
      simp only [Res.ok_bind, List.length_map]
      split
      · rw [slot_map]
        cases slot h j with
        | ok p =>
          simp only [mapR_ok, Res.ok_bind]
          split
          · rw [put_map]; exact downLoop_map f lt node n _ _
          · rw [put_map]; rfl
        | raise e => rfl
        | ub => rfl
      · rw [put_map]; rfl
    | raise e => rfl
    | ub => rfl

theorem down_map (f : α → β) (lt : β → β → Bool) (h : List α) : down lt (h.map f) = mapR (List.map f) (down (fun a b => lt (f a) (f b)) h) := by
  cases h with
  | nil => rfl
  | cons a h =>
    simp only [down, List.map_cons]
    rw [← List.map_cons, downLoop_map, List.length_map]

theorem insert_map (f : α → β) (lt : β → β → Bool) (q : PQ α) (e : α) :
    insert lt (q.map f) (f e) = mapR (fun r => (r.1.map f, r.2.1, r.2.2.map f)) (insert (fun a b => lt (f a) (f b)) q e) := by
  unfold insert
  simp only [PQ.map, List.length_map]
  split
  · unfold push
    simp only [List.length_map]
    by_cases hm : q.heap.length + 1 ≥ (if q.heap.length + 1 ≥ q.memCapa then q.memCapa * 2 else q.memCapa)
    · rw [if_pos hm, if_pos hm]; rfl
    · rw [if_neg hm, if_neg hm]
      rw [show q.heap.map f ++ [f e] = (q.heap ++ [e]).map f by simp, up_map]
      cases up (fun a b => lt (f a) (f b)) (q.heap ++ [e]) <;> rfl
  · cases hq : q.heap with
    | nil => simp [hq]
    | cons t rest =>
      simp only [List.map_cons]
      split
      · rw [show (f e :: rest.map f) = (e :: rest).map f from rfl, down_map]
        cases down (fun a b => lt (f a) (f b)) (e :: rest) <;> rfl
      · simp [mapR, PQ.map, hq]

theorem pop_map (f : α → β) (lt : β → β → Bool) (q : PQ α) :
    pop lt (q.map f) = mapR (fun r => (r.1.map f, r.2.map f)) (pop (fun a b => lt (f a) (f b)) q) := by
  unfold pop
  simp only [PQ.map]
  cases hq : q.heap with
  | nil => simp [mapR, PQ.map, hq]
  | cons t rest =>
    simp only [List.map_cons]
    rw [show (put (f t :: List.map f rest) 1 ((f t :: List.map f rest).getLast (by simp))).dropLast =
        (put (t :: rest) 1 ((t :: rest).getLast (by simp))).dropLast.map f by
      rw [List.map_dropLast, ← put_map]
      congr 1
      simp only [← List.map_cons]
      rw [List.getLast_map]]
    rw [down_map]
    cases down (fun a b => lt (f a) (f b)) (put (t :: rest) 1 ((t :: rest).getLast (by simp))).dropLast <;> rfl

theorem popN_map (f : α → β) (lt : β → β → Bool) : ∀ (n : Nat) (q : PQ α),
    Search.popN lt n (q.map f) = mapR (List.map f) (Search.popN (fun a b => lt (f a) (f b)) n q)
  | 0, _ => rfl
  | n + 1, q => by
    simp only [Search.popN]
    rw [pop_map]
    cases pop (fun a b => lt (f a) (f b)) q with
    | ok r =>
      obtain ⟨o, q'⟩ := r
      simp only [mapR_ok, Res.ok_bind]
      cases o with
      | none => rfl
      | some h =>
        simp only [Option.map_some]
        rw [popN_map f lt n q']
        cases Search.popN (fun a b => lt (f a) (f b)) n q' <;> rfl
    | raise e => rfl
    | ub => rfl

theorem pageBy_map (f : α → β) (lt : β → β → Bool) (q : PQ α) (first num : Nat) :
    Search.pageBy lt (q.map f) first num = mapR (List.map f) (Search.pageBy (fun a b => lt (f a) (f b)) q first num) := by
  unfold Search.pageBy
  simp only [PQ.map, List.length_map]
  split
  · have := popN_map f lt (if q.heap.length - first < num then q.heap.length - first else num) q
    simp only [PQ.map] at this
    rw [this]
    cases Search.popN (fun a b => lt (f a) (f b)) (if q.heap.length - first < num then q.heap.length - first else num) q with
    | ok l => simp
    | raise e => rfl
    | ub => rfl
  · rfl

end Ferret.PQ
