import Verif.Model.Scan

/-!
The tables of the ASCII standard scanner, copied from c/src/scanner.c. The table of transitions at the end of
the input (`_StdTok_eof_trans`) is left out: `eof` is a null pointer that `p` never is.
-/

namespace Ferret.Scan.Ascii
set_option maxRecDepth 100000

/-- _StdTok_actions, scanner.c 25–38. -/
def actions : List Nat := [0, 1, 0, 1, 1, 1, 2, 1, 3, 1, 4, 1, 5, 1, 17, 1, 19, 1, 20, 1, 21, 1, 22, 1,
  23, 1, 24, 1, 25, 1, 26, 1, 27, 1, 28, 1, 29, 1, 30, 1, 31, 1, 32, 1, 33, 1, 34, 1,
  35, 1, 36, 1, 37, 2, 1, 18, 2, 5, 6, 2, 5, 7, 2, 5, 8, 2, 5, 9, 2, 5, 10, 2,
  5, 11, 2, 5, 12, 2, 5, 13, 2, 5, 14, 2, 5, 15, 2, 5, 16, 3, 5, 1, 12]

/-- _StdTok_key_offsets, scanner.c 40–52. -/
def keyOffsets : List Nat := [0, 0, 0, 14, 28, 43, 57, 69, 75, 85, 86, 92, 107, 128, 149, 170, 197, 218, 220, 242, 264, 286, 308, 330,
  352, 374, 396, 418, 439, 466, 467, 474, 501, 502, 515, 515, 537, 551, 565, 575, 591, 607, 623, 646, 668, 671, 694, 717,
  740, 763, 787, 810, 833, 856, 878, 900, 921, 929, 952, 977, 996, 1017, 1038, 1057, 1078, 1100, 1122, 1144, 1166, 1188, 1210, 1232,
  1254, 1279, 1295, 1314, 1334, 1359, 1386, 1412, 1438, 1463, 1476, 1502, 1528, 1554, 1580]

/-- Part of _StdTok_trans_keys, scanner.c 54–256. -/
def transKeys0 : List Nat := [33, 46, 61, 64, 35, 39, 42, 43, 45, 57, 63, 90, 94, 126, 33, 45, 61, 63, 35, 39, 42, 43, 47, 57,
  65, 90, 94, 126, 33, 45, 61, 63, 91, 35, 39, 42, 43, 47, 57, 65, 90, 94, 126, 33, 45, 61, 63, 35,
  39, 42, 43, 47, 57, 65, 90, 94, 126, 92, 93, 1, 8, 11, 12, 14, 31, 33, 90, 94, 127, 1, 9, 11,
  12, 14, 127, 34, 92, 1, 8, 11, 12, 14, 31, 33, 127, 64, 1, 9, 11, 12, 14, 127, 33, 45, 47, 61,
  63, 35, 39, 42, 43, 48, 57, 65, 90, 94, 126, 33, 45, 46, 47, 61, 63, 64, 35, 39, 42, 43, 48, 57,
  65, 90, 94, 96, 97, 122, 123, 126, 33, 45, 46, 47, 61, 63, 64, 35, 39, 42, 43, 48, 57, 65, 90, 94,
  96, 97, 122, 123, 126, 33, 45, 46, 47, 61, 63, 64, 35, 39, 42, 43, 48, 57, 65, 90, 94, 96, 97, 122,
  123, 126, 33, 45, 47, 61, 63, 98, 99, 101, 103, 105, 109, 110, 111, 35, 39, 42, 43, 48, 57, 65, 90, 94,
  96, 97, 122, 123, 126, 33, 45, 46, 47, 61, 63, 64, 35, 39, 42, 43, 48, 57, 65, 90, 94, 96, 97, 122,
  123, 126, 48, 57, 33, 45, 46, 47, 61, 63, 64, 105, 35, 39, 42, 43, 48, 57, 65, 90, 94, 96, 97, 122,
  123, 126, 33, 45, 46, 47, 61, 63, 64, 111, 35, 39, 42, 43, 48, 57, 65, 90, 94, 96, 97, 122, 123, 126,
  33, 45, 46, 47, 61, 63, 64, 100, 35, 39, 42, 43, 48, 57, 65, 90, 94, 96, 97, 122, 123, 126, 33, 45,
  46, 47, 61, 63, 64, 111, 35, 39, 42, 43, 48, 57, 65, 90, 94, 96, 97, 122, 123, 126, 33, 45, 46, 47,
  61, 63, 64, 110, 35, 39, 42, 43, 48, 57, 65, 90, 94, 96, 97, 122, 123, 126, 33, 45, 46, 47, 61, 63,
  64, 111, 35, 39, 42, 43, 48, 57, 65, 90, 94, 96, 97, 122, 123, 126, 33, 45, 46, 47, 61, 63, 64, 105,
  35, 39, 42, 43, 48, 57, 65, 90, 94, 96, 97, 122, 123, 126, 33, 45, 46, 47, 61, 63, 64, 101, 35, 39,
  42, 43, 48, 57, 65, 90, 94, 96, 97, 122, 123, 126, 33, 45, 46, 47, 61, 63, 64, 114, 35, 39, 42, 43,
  48, 57, 65, 90, 94, 96, 97, 122, 123, 126, 33, 46, 61, 63, 64, 35, 39, 42, 43, 45, 47, 48, 57, 65,
  90, 94, 96, 97, 122, 123, 126, 33, 45, 47, 61, 63, 98, 99, 101, 103, 105, 109, 110, 111, 35, 39, 42, 43,
  48, 57, 65, 90, 94, 96, 97, 122, 123, 126, 47, 95, 44, 58, 64, 90, 97, 122, 33, 45, 47, 61, 63, 98,
  99, 101, 103, 105, 109, 110, 111, 35, 39, 42, 43, 48, 57, 65, 90, 94, 96, 97, 122, 123]

/-- Part of _StdTok_trans_keys, scanner.c 54–256. -/
def transKeys1 : List Nat := [126, 47, 45, 47, 58, 64, 95, 44, 46, 48, 57, 65, 90, 97, 122, 0, 34, 42, 43, 45, 47, 61, 63, 102,
  104, 33, 39, 48, 57, 65, 90, 94, 96, 97, 122, 123, 126, 33, 46, 61, 64, 35, 39, 42, 43, 45, 57, 63,
  90, 94, 126, 33, 46, 61, 63, 35, 39, 42, 43, 45, 57, 65, 90, 94, 126, 34, 92, 1, 8, 11, 12, 14,
  31, 33, 127, 33, 46, 61, 64, 35, 39, 42, 43, 45, 47, 48, 57, 63, 90, 94, 126, 33, 46, 61, 64, 35,
  39, 42, 43, 45, 47, 48, 57, 63, 90, 94, 126, 33, 46, 61, 64, 35, 39, 42, 43, 45, 47, 48, 57, 63,
  90, 94, 126, 33, 45, 46, 47, 58, 61, 63, 64, 95, 35, 39, 42, 43, 48, 57, 65, 90, 94, 96, 97, 122,
  123, 126, 33, 45, 46, 47, 58, 61, 63, 64, 35, 39, 42, 43, 48, 57, 65, 90, 94, 96, 97, 122, 123, 126,
  47, 48, 57, 33, 45, 46, 47, 58, 61, 63, 64, 122, 35, 39, 42, 43, 48, 57, 65, 90, 94, 96, 97, 121,
  123, 126, 33, 45, 46, 47, 58, 61, 63, 64, 109, 35, 39, 42, 43, 48, 57, 65, 90, 94, 96, 97, 122, 123,
  126, 33, 45, 46, 47, 58, 61, 63, 64, 117, 35, 39, 42, 43, 48, 57, 65, 90, 94, 96, 97, 122, 123, 126,
  33, 45, 46, 47, 58, 61, 63, 64, 118, 35, 39, 42, 43, 48, 57, 65, 90, 94, 96, 97, 122, 123, 126, 33,
  45, 46, 47, 58, 61, 63, 64, 102, 116, 35, 39, 42, 43, 48, 57, 65, 90, 94, 96, 97, 122, 123, 126, 33,
  45, 46, 47, 58, 61, 63, 64, 108, 35, 39, 42, 43, 48, 57, 65, 90, 94, 96, 97, 122, 123, 126, 33, 45,
  46, 47, 58, 61, 63, 64, 116, 35, 39, 42, 43, 48, 57, 65, 90, 94, 96, 97, 122, 123, 126, 33, 45, 46,
  47, 58, 61, 63, 64, 103, 35, 39, 42, 43, 48, 57, 65, 90, 94, 96, 97, 122, 123, 126, 33, 45, 46, 47,
  61, 63, 64, 95, 35, 39, 42, 43, 48, 57, 65, 90, 94, 96, 97, 122, 123, 126, 33, 45, 46, 47, 61, 63,
  64, 95, 35, 39, 42, 43, 48, 57, 65, 90, 94, 96, 97, 122, 123, 126, 33, 45, 46, 47, 61, 63, 64, 35,
  39, 42, 43, 48, 57, 65, 90, 94, 96, 97, 122, 123, 126, 47, 95, 44, 58, 64, 90, 97, 122, 33, 45, 46,
  47, 58, 61, 63, 64, 95, 35, 39, 42, 43, 48, 57, 65, 90, 94, 96, 97, 122, 123, 126, 33, 38, 39, 45,
  46, 47, 58, 61, 63, 64, 95, 35, 37, 42, 43, 48, 57, 65, 90, 94, 96, 97, 122, 123, 126, 33, 46, 61,
  63, 64, 35, 39, 42, 43, 45, 57, 65, 90, 94, 96, 97, 122, 123, 126, 33, 46, 61, 63]

/-- Part of _StdTok_trans_keys, scanner.c 54–256. -/
def transKeys2 : List Nat := [64, 35, 39, 42, 43, 45, 47, 48, 57, 65, 90, 94, 96, 97, 122, 123, 126, 33, 46, 61, 63, 64, 83, 115,
  35, 39, 42, 43, 45, 57, 65, 90, 94, 96, 97, 122, 123, 126, 33, 46, 61, 63, 64, 35, 39, 42, 43, 45,
  57, 65, 90, 94, 96, 97, 122, 123, 126, 33, 45, 46, 47, 61, 63, 64, 35, 39, 42, 43, 48, 57, 65, 90,
  94, 96, 97, 122, 123, 126, 33, 45, 46, 47, 61, 63, 64, 105, 35, 39, 42, 43, 48, 57, 65, 90, 94, 96,
  97, 122, 123, 126, 33, 45, 46, 47, 61, 63, 64, 111, 35, 39, 42, 43, 48, 57, 65, 90, 94, 96, 97, 122,
  123, 126, 33, 45, 46, 47, 61, 63, 64, 100, 35, 39, 42, 43, 48, 57, 65, 90, 94, 96, 97, 122, 123, 126,
  33, 45, 46, 47, 61, 63, 64, 111, 35, 39, 42, 43, 48, 57, 65, 90, 94, 96, 97, 122, 123, 126, 33, 45,
  46, 47, 61, 63, 64, 110, 35, 39, 42, 43, 48, 57, 65, 90, 94, 96, 97, 122, 123, 126, 33, 45, 46, 47,
  61, 63, 64, 105, 35, 39, 42, 43, 48, 57, 65, 90, 94, 96, 97, 122, 123, 126, 33, 45, 46, 47, 61, 63,
  64, 101, 35, 39, 42, 43, 48, 57, 65, 90, 94, 96, 97, 122, 123, 126, 33, 45, 46, 47, 61, 63, 64, 114,
  35, 39, 42, 43, 48, 57, 65, 90, 94, 96, 97, 122, 123, 126, 33, 38, 39, 45, 46, 47, 58, 61, 63, 64,
  95, 35, 37, 42, 43, 48, 57, 65, 90, 94, 96, 97, 122, 123, 126, 33, 46, 61, 64, 83, 115, 35, 39, 42,
  43, 45, 57, 63, 90, 94, 126, 33, 45, 61, 63, 91, 35, 39, 42, 43, 47, 57, 65, 90, 94, 96, 97, 122,
  123, 126, 33, 46, 61, 63, 35, 39, 42, 43, 45, 47, 48, 57, 65, 90, 94, 96, 97, 122, 123, 126, 33, 38,
  39, 45, 46, 47, 58, 61, 63, 64, 95, 35, 37, 42, 43, 48, 57, 65, 90, 94, 96, 97, 122, 123, 126, 33,
  38, 39, 45, 46, 47, 58, 61, 63, 64, 95, 105, 116, 35, 37, 42, 43, 48, 57, 65, 90, 94, 96, 97, 122,
  123, 126, 33, 38, 39, 45, 46, 47, 58, 61, 63, 64, 95, 108, 35, 37, 42, 43, 48, 57, 65, 90, 94, 96,
  97, 122, 123, 126, 33, 38, 39, 45, 46, 47, 58, 61, 63, 64, 95, 101, 35, 37, 42, 43, 48, 57, 65, 90,
  94, 96, 97, 122, 123, 126, 33, 38, 39, 45, 46, 47, 58, 61, 63, 64, 95, 35, 37, 42, 43, 48, 57, 65,
  90, 94, 96, 97, 122, 123, 126, 45, 47, 58, 64, 95, 44, 46, 48, 57, 65, 90, 97, 122, 33, 38, 39, 45,
  46, 47, 58, 61, 63, 64, 95, 112, 35, 37, 42, 43, 48, 57, 65, 90, 94, 96, 97, 122]

/-- Part of _StdTok_trans_keys, scanner.c 54–256. -/
def transKeys3 : List Nat := [123, 126, 33, 38, 39, 45, 46, 47, 58, 61, 63, 64, 95, 116, 35, 37, 42, 43, 48, 57, 65, 90, 94, 96,
  97, 122, 123, 126, 33, 38, 39, 45, 46, 47, 58, 61, 63, 64, 95, 116, 35, 37, 42, 43, 48, 57, 65, 90,
  94, 96, 97, 122, 123, 126, 33, 38, 39, 45, 46, 47, 58, 61, 63, 64, 95, 112, 35, 37, 42, 43, 48, 57,
  65, 90, 94, 96, 97, 122, 123, 126, 33, 38, 39, 45, 46, 47, 58, 61, 63, 64, 95, 115, 35, 37, 42, 43,
  48, 57, 65, 90, 94, 96, 97, 122, 123, 126, 0]

/-- _StdTok_trans_keys, scanner.c 54–256. -/
def transKeys : List Nat := transKeys0 ++ transKeys1 ++ transKeys2 ++ transKeys3

/-- _StdTok_single_lengths, scanner.c 258–270. -/
def singles : List Nat := [0, 0, 4, 4, 5, 4, 2, 0, 2, 1, 0, 5, 7, 7, 7, 13, 7, 0, 8, 8, 8, 8, 8, 8,
  8, 8, 8, 5, 13, 1, 1, 13, 1, 5, 0, 10, 4, 4, 2, 4, 4, 4, 9, 8, 1, 9, 9, 9,
  9, 10, 9, 9, 9, 8, 8, 7, 2, 9, 11, 5, 5, 7, 5, 7, 8, 8, 8, 8, 8, 8, 8, 8,
  11, 6, 5, 4, 11, 13, 12, 12, 11, 5, 12, 12, 12, 12, 12]

/-- _StdTok_range_lengths, scanner.c 272–284. -/
def ranges : List Nat := [0, 0, 5, 5, 5, 5, 5, 3, 4, 0, 3, 5, 7, 7, 7, 7, 7, 1, 7, 7, 7, 7, 7, 7,
  7, 7, 7, 8, 7, 0, 3, 7, 0, 4, 0, 6, 5, 5, 4, 6, 6, 6, 7, 7, 1, 7, 7, 7,
  7, 7, 7, 7, 7, 7, 7, 7, 3, 7, 7, 7, 8, 7, 7, 7, 7, 7, 7, 7, 7, 7, 7, 7,
  7, 5, 7, 8, 7, 7, 7, 7, 7, 4, 7, 7, 7, 7, 7]

/-- _StdTok_index_offsets, scanner.c 286–298. -/
def indexOffsets : List Nat := [0, 0, 1, 11, 21, 32, 42, 50, 54, 61, 63, 67, 78, 93, 108, 123, 144, 159, 161, 177, 193, 209, 225, 241,
  257, 273, 289, 305, 319, 340, 342, 347, 368, 370, 380, 381, 398, 408, 418, 425, 436, 447, 458, 475, 491, 494, 511, 528,
  545, 562, 580, 597, 614, 631, 647, 663, 678, 684, 701, 720, 733, 747, 762, 775, 790, 806, 822, 838, 854, 870, 886, 902,
  918, 937, 949, 962, 975, 994, 1015, 1035, 1055, 1074, 1084, 1104, 1124, 1144, 1164]

/-- Part of _StdTok_indicies, scanner.c 300–450. -/
def indicies0 : List Nat := [0, 2, 3, 2, 4, 2, 2, 2, 2, 2, 1, 2, 2, 2, 2, 2, 2, 2, 2, 2, 1, 5, 5, 5,
  5, 6, 5, 5, 5, 5, 5, 1, 5, 5, 5, 5, 5, 5, 5, 5, 5, 7, 8, 9, 6, 6, 6, 6,
  6, 1, 6, 6, 6, 1, 12, 13, 11, 11, 11, 11, 10, 4, 10, 11, 11, 11, 10, 2, 2, 2, 2, 2,
  2, 2, 15, 2, 2, 14, 2, 16, 3, 2, 2, 2, 4, 2, 2, 17, 17, 2, 17, 2, 1, 2, 16, 3,
  2, 2, 2, 4, 2, 2, 18, 18, 2, 18, 2, 1, 2, 16, 19, 2, 2, 2, 4, 2, 2, 18, 18, 2,
  18, 2, 1, 2, 2, 2, 2, 2, 21, 22, 23, 24, 25, 26, 27, 28, 2, 2, 18, 20, 2, 20, 2, 1,
  2, 16, 19, 2, 2, 2, 4, 2, 2, 18, 29, 2, 29, 2, 1, 31, 30, 2, 16, 19, 2, 2, 2, 4,
  32, 2, 2, 18, 29, 2, 29, 2, 1, 2, 16, 19, 2, 2, 2, 4, 33, 2, 2, 18, 29, 2, 29, 2,
  1, 2, 16, 19, 2, 2, 2, 4, 34, 2, 2, 18, 29, 2, 29, 2, 1, 2, 16, 19, 2, 2, 2, 4,
  35, 2, 2, 18, 29, 2, 29, 2, 1, 2, 16, 19, 2, 2, 2, 4, 36, 2, 2, 18, 29, 2, 29, 2,
  1, 2, 16, 19, 2, 2, 2, 4, 29, 2, 2, 18, 18, 2, 18, 2, 30, 2, 16, 19, 2, 2, 2, 4,
  37, 2, 2, 18, 29, 2, 29, 2, 1, 2, 16, 19, 2, 2, 2, 4, 38, 2, 2, 18, 29, 2, 29, 2,
  1, 2, 16, 19, 2, 2, 2, 4, 39, 2, 2, 18, 29, 2, 29, 2, 1, 2, 3, 2, 2, 4, 2, 2,
  2, 40, 40, 2, 40, 2, 1, 2, 2, 2, 2, 2, 21, 22, 23, 24, 25, 26, 27, 28, 2, 2, 42, 20,
  2, 20, 2, 41, 43, 1, 44, 44, 44, 44, 1, 2, 2, 2, 2, 2, 46, 47, 48, 49, 50, 51, 52, 53,
  2, 2, 18, 45, 2, 45, 2, 1, 55, 54, 56, 57, 44, 44, 56, 44, 56, 56, 56, 54, 58, 59, 62, 61,
  63, 63, 61, 61, 61, 66, 67, 61, 64, 65, 61, 65, 61, 60, 2, 3, 2, 4, 2, 2, 2, 2, 2, 1,
  5, 69, 5, 5, 5, 5, 5, 5, 5, 68, 12, 13, 11, 11, 11, 11, 70, 2, 3, 2, 4, 2, 2, 2,
  71, 2, 2, 70, 2, 73, 2, 4, 2, 2, 2, 71, 2, 2, 72, 2, 3, 2, 4, 2, 2, 2, 15, 2,
  2, 74, 2, 76, 77, 2, 78, 2, 2, 4, 80, 2, 2, 64, 79, 2, 79, 2, 75, 2, 16, 19, 82, 83,
  2, 2, 4, 2, 2, 18, 18, 2, 18, 2, 81, 84, 31, 81, 2, 16, 19, 82, 83, 2]

/-- Part of _StdTok_indicies, scanner.c 300–450. -/
def indicies1 : List Nat := [2, 4, 29, 2, 2, 18, 18, 2, 18, 2, 81, 2, 16, 19, 82, 83, 2, 2, 4, 29, 2, 2, 18, 18,
  2, 18, 2, 81, 2, 16, 19, 82, 83, 2, 2, 4, 29, 2, 2, 18, 18, 2, 18, 2, 81, 2, 16, 19,
  82, 83, 2, 2, 4, 29, 2, 2, 18, 18, 2, 18, 2, 81, 2, 16, 19, 82, 83, 2, 2, 4, 85, 29,
  2, 2, 18, 18, 2, 18, 2, 81, 2, 16, 19, 82, 83, 2, 2, 4, 29, 2, 2, 18, 18, 2, 18, 2,
  81, 2, 16, 19, 82, 83, 2, 2, 4, 29, 2, 2, 18, 18, 2, 18, 2, 81, 2, 16, 19, 82, 83, 2,
  2, 4, 29, 2, 2, 18, 18, 2, 18, 2, 81, 2, 76, 19, 2, 2, 2, 4, 80, 2, 2, 17, 17, 2,
  17, 2, 75, 2, 80, 3, 2, 2, 2, 4, 80, 2, 2, 40, 40, 2, 40, 2, 75, 2, 16, 19, 2, 2,
  2, 4, 2, 2, 42, 18, 2, 18, 2, 74, 86, 44, 44, 44, 44, 81, 2, 76, 19, 2, 78, 2, 2, 4,
  80, 2, 2, 79, 79, 2, 79, 2, 75, 2, 88, 89, 76, 90, 2, 78, 2, 2, 92, 80, 2, 2, 91, 93,
  2, 93, 2, 87, 2, 3, 2, 2, 4, 2, 2, 2, 95, 2, 95, 2, 94, 2, 3, 2, 2, 4, 2, 2,
  2, 95, 95, 2, 95, 2, 94, 2, 3, 2, 2, 4, 98, 98, 2, 2, 2, 97, 2, 97, 2, 96, 2, 3,
  2, 2, 4, 2, 2, 2, 97, 2, 97, 2, 1, 2, 16, 90, 2, 2, 2, 4, 2, 2, 18, 29, 2, 29,
  2, 99, 2, 16, 90, 2, 2, 2, 4, 32, 2, 2, 18, 29, 2, 29, 2, 99, 2, 16, 90, 2, 2, 2,
  4, 33, 2, 2, 18, 29, 2, 29, 2, 99, 2, 16, 90, 2, 2, 2, 4, 34, 2, 2, 18, 29, 2, 29,
  2, 99, 2, 16, 90, 2, 2, 2, 4, 35, 2, 2, 18, 29, 2, 29, 2, 99, 2, 16, 90, 2, 2, 2,
  4, 36, 2, 2, 18, 29, 2, 29, 2, 99, 2, 16, 90, 2, 2, 2, 4, 37, 2, 2, 18, 29, 2, 29,
  2, 99, 2, 16, 90, 2, 2, 2, 4, 38, 2, 2, 18, 29, 2, 29, 2, 99, 2, 16, 90, 2, 2, 2,
  4, 39, 2, 2, 18, 29, 2, 29, 2, 99, 2, 88, 100, 76, 19, 2, 78, 2, 2, 92, 80, 2, 2, 91,
  91, 2, 91, 2, 87, 2, 3, 2, 4, 101, 101, 2, 2, 2, 2, 2, 96, 5, 5, 5, 5, 6, 5, 5,
  5, 102, 5, 102, 5, 94, 5, 69, 5, 5, 5, 5, 5, 102, 102, 5, 102, 5, 68, 2, 88, 89, 76, 19,
  2, 78, 2, 2, 92, 80, 2, 2, 91, 93, 2, 93, 2, 87, 2, 88, 89, 76, 90, 2]

/-- Part of _StdTok_indicies, scanner.c 300–450. -/
def indicies2 : List Nat := [78, 2, 2, 92, 80, 103, 104, 2, 2, 91, 93, 2, 93, 2, 87, 2, 88, 89, 76, 19, 2, 78, 2, 2,
  92, 80, 105, 2, 2, 91, 93, 2, 93, 2, 87, 2, 88, 89, 76, 19, 2, 78, 2, 2, 92, 80, 106, 2,
  2, 91, 93, 2, 93, 2, 87, 2, 88, 89, 76, 19, 2, 107, 2, 2, 92, 80, 2, 2, 91, 93, 2, 93,
  2, 87, 56, 108, 44, 44, 56, 44, 56, 56, 56, 81, 2, 88, 89, 76, 19, 2, 78, 2, 2, 92, 80, 106,
  2, 2, 91, 93, 2, 93, 2, 87, 2, 88, 89, 76, 90, 2, 78, 2, 2, 92, 80, 109, 2, 2, 91, 93,
  2, 93, 2, 87, 2, 88, 89, 76, 19, 2, 78, 2, 2, 92, 80, 110, 2, 2, 91, 93, 2, 93, 2, 87,
  2, 88, 89, 76, 19, 2, 78, 2, 2, 92, 80, 111, 2, 2, 91, 93, 2, 93, 2, 87, 2, 88, 89, 76,
  19, 2, 107, 2, 2, 92, 80, 106, 2, 2, 91, 93, 2, 93, 2, 87, 0]

/-- _StdTok_indicies, scanner.c 300–450. -/
def indicies : List Nat := indicies0 ++ indicies1 ++ indicies2

/-- _StdTok_trans_targs, scanner.c 452–467. -/
def targs : List Nat := [34, 35, 2, 3, 4, 37, 6, 35, 7, 35, 35, 8, 9, 10, 35, 41, 13, 53, 14, 15, 16, 18, 19, 20,
  21, 22, 24, 25, 26, 43, 35, 44, 45, 46, 47, 48, 49, 50, 51, 52, 54, 35, 55, 30, 56, 63, 64, 65,
  66, 67, 68, 69, 70, 71, 35, 33, 56, 81, 0, 35, 35, 36, 38, 39, 42, 58, 77, 83, 35, 5, 35, 40,
  35, 11, 35, 35, 12, 28, 29, 57, 27, 35, 36, 17, 35, 23, 56, 35, 59, 61, 31, 72, 74, 76, 35, 60,
  35, 62, 62, 35, 73, 36, 75, 78, 82, 79, 80, 32, 81, 84, 85, 86]

/-- _StdTok_trans_actions, scanner.c 469–484. -/
def tacts : List Nat := [5, 51, 0, 0, 0, 11, 0, 39, 0, 13, 49, 0, 0, 0, 47, 83, 0, 68, 0, 0, 0, 0, 0, 0,
  0, 0, 0, 0, 0, 74, 45, 0, 74, 74, 74, 74, 74, 74, 74, 74, 68, 43, 83, 0, 0, 77, 77, 77,
  77, 77, 77, 77, 77, 77, 41, 0, 1, 0, 0, 15, 17, 86, 86, 86, 68, 56, 56, 56, 19, 0, 37, 80,
  33, 0, 35, 25, 0, 0, 0, 68, 0, 29, 89, 0, 53, 0, 3, 21, 71, 59, 0, 56, 71, 56, 27, 71,
  23, 65, 62, 31, 59, 62, 11, 56, 56, 56, 56, 0, 3, 56, 56, 56]

/-- _StdTok_to_state_actions, scanner.c 486–498. -/
def toState : List Nat := [0, 7, 0, 0, 0, 0, 0, 0, 0, 0, 0, 0, 0, 0, 0, 0, 0, 0, 0, 0, 0, 0, 0, 0,
  0, 0, 0, 0, 0, 0, 0, 0, 0, 0, 7, 7, 0, 0, 0, 0, 0, 0, 0, 0, 0, 0, 0, 0,
  0, 0, 0, 0, 0, 0, 0, 0, 0, 0, 0, 0, 0, 0, 0, 0, 0, 0, 0, 0, 0, 0, 0, 0,
  0, 0, 0, 0, 0, 0, 0, 0, 0, 0, 0, 0, 0, 0, 0]

/-- _StdTok_from_state_actions, scanner.c 500–512. -/
def fromState : List Nat := [0, 0, 0, 0, 0, 0, 0, 0, 0, 0, 0, 0, 0, 0, 0, 0, 0, 0, 0, 0, 0, 0, 0, 0,
  0, 0, 0, 0, 0, 0, 0, 0, 0, 0, 0, 9, 0, 0, 0, 0, 0, 0, 0, 0, 0, 0, 0, 0,
  0, 0, 0, 0, 0, 0, 0, 0, 0, 0, 0, 0, 0, 0, 0, 0, 0, 0, 0, 0, 0, 0, 0, 0,
  0, 0, 0, 0, 0, 0, 0, 0, 0, 0, 0, 0, 0, 0, 0]

/-- The tables. -/
def tables : Tables :=
  ⟨actions, keyOffsets, transKeys, singles, ranges, indexOffsets, indicies, targs, tacts, toState, fromState⟩

/-- The actions by number, scanner.c 656–835, 586–589, 844–847. -/
def act : List Act := [.skip,
  .trunc,
  .call 35,
  .tsNull,
  .tsHere,
  .mark,
  .setAct 2,
  .setAct 3,
  .setAct 4,
  .setAct 5,
  .setAct 6,
  .setAct 7,
  .setAct 8,
  .setAct 9,
  .setAct 10,
  .setAct 11,
  .setAct 13,
  .emit .next none false,
  .emit .next none false,
  .stop,
  .pass .next,
  .emit .here none false,
  .emit .here none false,
  .emit .here (some 1) false,
  .emit .here none false,
  .emit .here none false,
  .emit .here none false,
  .emit .here none true,
  .emit .here none false,
  .emit .here none false,
  .pass .here,
  .emit .back none false,
  .emit .back none false,
  .emit .back none false,
  .emit .back none false,
  .emit .back none false,
  .pass .back,
  .switch]

/-- What is done with what was matched last, by the number of the pattern, scanner.c 798–832. -/
def case : Nat → Option Act
  | 2 => some (.emit .back none false)
  | 3 => some (.emit .back (some 1) false)
  | 4 => some (.emit .back (some 2) false)
  | 5 => some (.emit .back none false)
  | 6 => some (.emit .back none false)
  | 7 => some (.emit .back none false)
  | 8 => some (.emit .back none false)
  | 9 => some (.emit .back none true)
  | 10 => some (.emit .back none false)
  | 11 => some (.emit .back none false)
  | 13 => some (.pass .back)
  | _ => none

/-- frt_std_scan, scanner.c 528–532, 537–900. -/
def machine : Machine := ⟨tables, act, case, 1⟩

end Ferret.Scan.Ascii
