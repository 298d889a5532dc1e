import Verif.Spec.Dir

/-!
File names of the index: generations in base 36 (c/src/index.c 59–167, 724–801).
Names are byte strings without the terminating NUL.
-/

namespace Ferret.Names
open Ferret Ferret.Spec

/-- BASE36_DIGITMAP, index.c 59: "0123456789abcdefghijklmnopqrstuvwxyz". -/
def digitmap : List Byte :=
  [48, 49, 50, 51, 52, 53, 54, 55, 56, 57,
   97, 98, 99, 100, 101, 102, 103, 104, 105, 106, 107, 108, 109, 110, 111, 112, 113,
   114, 115, 116, 117, 118, 119, 120, 121, 122]

/-- The loop of u64_to_str36, index.c 65–75: fill the buffer from its end, `slots` places left, `acc`
the digits written so far. Running out of places raises. `base` is 36; with 10 the same loop stands
for the `%d` of sprintf at 160. -/
def digitsLoop (base : Nat) : (slots u : Nat) → (acc : Name) → Res Name
  | 0, _, _ => .raise .exception
  | k + 1, u, acc => Res.ofOption digitmap[u % base]? >>= fun d =>
      if u / base = 0 then .ok (d :: acc) else digitsLoop base k (u / base) (d :: acc)

/-- u64_to_str36, index.c 61–77; `bufSize` counts the NUL and is at least 2 in every call. -/
def u64ToStr36 (bufSize u : Nat) : Res Name := digitsLoop 36 (bufSize - 1) u []

/-- str36_to_u64, index.c 79–95, in arithmetic modulo 2^64; the list ends where the C string has its NUL. -/
def str36ToU64 : (u : Nat) → Name → Nat
  | u, [] => u
  | u, c :: cs =>
    if 48 ≤ c.toNat ∧ c.toNat ≤ 57 then str36ToU64 ((u * 36 + c.toNat - 48) % 2 ^ 64) cs
    else if 97 ≤ c.toNat ∧ c.toNat ≤ 122 then str36ToU64 ((u * 36 + c.toNat - 97 + 10) % 2 ^ 64) cs
    else u

/-- SEGMENT_NAME_MAX_LENGTH, c/include/index.h: the size of every buffer a name is printed to. -/
def nameMax : Nat := 100

/-- sprintf to a buffer of SEGMENT_NAME_MAX_LENGTH bytes: writing beyond it is undefined. -/
def sprintf (n : Name) : Res Name := if n.length < nameMax then .ok n else .ub

/-- fn_for_generation, index.c 108–127; `none` is NULL. The generation is an i64, cast to u64. -/
def fnForGeneration (base : Name) (ext : Option Name) (gen : Int) : Res (Option Name) :=
  if gen = -1 then .ok none
  else u64ToStr36 nameMax (toU 8 gen) >>= fun u =>
    match ext with
    | none => sprintf (base ++ 95 :: u) >>= fun n => .ok (some n)
    | some e => sprintf (base ++ 95 :: u ++ 46 :: e) >>= fun n => .ok (some n)

/-- SEGMENTS_FILE_NAME, c/include/index.h: "segments". -/
def segmentsFile : Name := [115, 101, 103, 109, 101, 110, 116, 115]

/-- segfn_for_generation, index.c 129–135. -/
def segfn (gen : Nat) : Res Name :=
  u64ToStr36 nameMax gen >>= fun u => sprintf (segmentsFile ++ 95 :: u)

/-- `%d` of a non-negative int: at most ten digits. -/
def decimal (n : Nat) : Res Name := digitsLoop 10 10 n []

/-- fn_for_gen_field, index.c 149–167. -/
def fnForGenField (base ext : Name) (gen : Int) (field : Nat) : Res (Option Name) :=
  if gen = -1 then .ok none
  else u64ToStr36 nameMax (toU 8 gen) >>= fun u =>
    decimal field >>= fun d =>
    sprintf (base ++ 95 :: u ++ 46 :: (ext ++ d)) >>= fun n => .ok (some n)

/-- new_segment, index.c 725–732. The counter is printed to a buffer of SEGMENT_NAME_MAX_LENGTH - 1
bytes and an underscore put before it. -/
def newSegment (counter : Nat) : Res Name := u64ToStr36 (nameMax - 1) counter >>= fun u => .ok (95 :: u)

/-- What follows the last underscore: strrchr(file_name, '_') + 1, index.c 752. -/
def afterLast : Name → Option Name
  | [] => none
  | c :: cs => match afterLast cs with
    | some r => some r
    | none => if c = 95 then some cs else none

/-- which_gen_i, index.c 747–756. -/
def whichGen (max : Int) (file : Name) : Res Int :=
  if (segmentsFile ++ [95]).isPrefixOf file then
    Res.ofOption (afterLast file) >>= fun p =>
      let generation := toS 8 (str36ToU64 0 p)
      .ok (if generation > max then generation else max)
  else .ok max

/-- sis_current_segment_generation, index.c 796–801, on the names the store enumerates. -/
def currentGeneration : Int → List Name → Res Int
  | max, [] => .ok max
  | max, n :: ns => whichGen max n >>= fun max => currentGeneration max ns

end Ferret.Names
