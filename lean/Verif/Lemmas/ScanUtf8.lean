import Verif.Lemmas.ScanSim
import Verif.Model.ScanAscii
import Verif.Model.ScanUtf8

/-! The ASCII and the UTF-8 scanner: states that go together. -/

namespace Ferret.Scan
set_option maxRecDepth 100000

/-- For each state of the ASCII scanner that of the UTF-8 scanner, pairs of patterns, and their rows. -/
def simAscii : Sim := [
  (0, [], ⟨⟨[], [], []⟩, ⟨[], [], []⟩, []⟩),
  (0, [], ⟨⟨[], [], []⟩, ⟨[], [], []⟩, []⟩),
  (2, [(2, 2), (3, 3), (4, 4), (5, 5), (6, 6), (7, 7), (8, 8), (9, 9), (10, 10), (11, 11), (13, 13)], ⟨⟨[33, 46, 61, 64], [(35, 39), (42, 43), (45, 57), (63, 90), (94, 126)], [2, 3, 2, 4, 2, 2, 2, 2, 2, 1]⟩, ⟨[33, 46, 61, 64], [(35, 39), (42, 43), (45, 57), (63, 90), (94, 126)], [2, 3, 2, 4, 2, 2, 2, 2, 2, 1]⟩, [(1, 1), (2, 2), (3, 3), (4, 4)]⟩),
  (3, [(2, 2), (3, 3), (4, 4), (5, 5), (6, 6), (7, 7), (8, 8), (9, 9), (10, 10), (11, 11), (13, 13)], ⟨⟨[33, 45, 61, 63], [(35, 39), (42, 43), (47, 57), (65, 90), (94, 126)], [2, 2, 2, 2, 2, 2, 2, 2, 2, 1]⟩, ⟨[33, 45, 61, 63], [(35, 39), (42, 43), (47, 57), (65, 90), (94, 126)], [2, 2, 2, 2, 2, 2, 2, 2, 2, 1]⟩, [(1, 1), (2, 2)]⟩),
  (4, [(2, 2), (3, 3), (4, 4), (5, 5), (6, 6), (7, 7), (8, 8), (9, 9), (10, 10), (11, 11), (13, 13)], ⟨⟨[33, 45, 61, 63, 91], [(35, 39), (42, 43), (47, 57), (65, 90), (94, 126)], [5, 5, 5, 5, 6, 5, 5, 5, 5, 5, 1]⟩, ⟨[33, 45, 61, 63, 91], [(35, 39), (42, 43), (47, 57), (65, 90), (94, 126)], [5, 5, 5, 5, 6, 5, 5, 5, 5, 5, 1]⟩, [(1, 1), (5, 5), (6, 6)]⟩),
  (5, [(2, 2), (3, 3), (4, 4), (5, 5), (6, 6), (7, 1), (7, 7), (8, 8), (9, 9), (10, 10), (11, 11), (13, 13)], ⟨⟨[33, 45, 61, 63], [(35, 39), (42, 43), (47, 57), (65, 90), (94, 126)], [5, 5, 5, 5, 5, 5, 5, 5, 5, 7]⟩, ⟨[33, 45, 61, 63], [(35, 39), (42, 43), (47, 57), (65, 90), (94, 126)], [5, 5, 5, 5, 5, 5, 5, 5, 5, 7]⟩, [(5, 5), (7, 7)]⟩),
  (6, [(2, 2), (3, 3), (4, 4), (5, 5), (6, 6), (7, 7), (8, 8), (9, 9), (10, 10), (11, 11), (13, 13)], ⟨⟨[92, 93], [(1, 8), (11, 12), (14, 31), (33, 90), (94, 127)], [8, 9, 6, 6, 6, 6, 6, 1]⟩, ⟨[92, 93], [(1, 8), (11, 12), (14, 31), (33, 90), (94, 127)], [8, 9, 6, 6, 6, 6, 6, 1]⟩, [(1, 1), (6, 6), (8, 8), (9, 9)]⟩),
  (7, [(2, 2), (3, 3), (4, 4), (5, 5), (6, 6), (7, 7), (8, 8), (9, 9), (10, 10), (11, 11), (13, 13)], ⟨⟨[], [(1, 9), (11, 12), (14, 127)], [6, 6, 6, 1]⟩, ⟨[], [(1, 9), (11, 12), (14, 127)], [6, 6, 6, 1]⟩, [(1, 1), (6, 6)]⟩),
  (8, [(13, 13)], ⟨⟨[34, 92], [(1, 8), (11, 12), (14, 31), (33, 127)], [12, 13, 11, 11, 11, 11, 10]⟩, ⟨[34, 92], [(1, 8), (11, 12), (14, 31), (33, 127)], [12, 13, 11, 11, 11, 11, 10]⟩, [(10, 10), (11, 11), (12, 12), (13, 13)]⟩),
  (9, [(13, 13)], ⟨⟨[64], [], [4, 10]⟩, ⟨[64], [], [4, 10]⟩, [(4, 4), (10, 10)]⟩),
  (10, [(13, 13)], ⟨⟨[], [(1, 9), (11, 12), (14, 127)], [11, 11, 11, 10]⟩, ⟨[], [(1, 9), (11, 12), (14, 127)], [11, 11, 11, 10]⟩, [(10, 10), (11, 11)]⟩),
  (11, [(10, 10)], ⟨⟨[33, 45, 47, 61, 63], [(35, 39), (42, 43), (48, 57), (65, 90), (94, 126)], [2, 2, 2, 2, 2, 2, 2, 15, 2, 2, 14]⟩, ⟨[33, 45, 47, 61, 63], [(35, 39), (42, 43), (48, 57), (65, 90), (94, 126)], [2, 2, 2, 2, 2, 2, 2, 15, 2, 2, 14]⟩, [(2, 2), (14, 14), (15, 15)]⟩),
  (12, [(2, 2), (6, 6)], ⟨⟨[33, 45, 46, 47, 61, 63, 64], [(35, 39), (42, 43), (48, 57), (65, 90), (94, 96), (97, 122), (123, 126)], [2, 16, 3, 2, 2, 2, 4, 2, 2, 17, 17, 2, 17, 2, 1]⟩, ⟨[33, 45, 46, 47, 61, 63, 64, 194, 195, 198, 199, 203, 205, 206, 207, 210, 212, 213, 214, 215, 216, 217, 219, 220, 221, 222, 223, 224, 225, 226, 227, 228, 233, 234, 237, 239, 240], [(35, 39), (42, 43), (48, 57), (65, 90), (94, 96), (97, 122), (123, 126), (196, 202), (208, 218), (229, 236)], [2, 16, 3, 2, 2, 2, 4, 18, 19, 21, 22, 23, 24, 25, 26, 27, 28, 29, 30, 31, 32, 33, 34, 35, 36, 37, 38, 39, 40, 41, 42, 43, 45, 46, 47, 48, 49, 2, 2, 17, 17, 2, 17, 2, 20, 20, 44, 1]⟩, [(1, 1), (2, 2), (3, 3), (4, 4), (16, 16), (17, 17)]⟩),
  (13, [(2, 2), (6, 6), (8, 8), (9, 9), (11, 11)], ⟨⟨[33, 45, 46, 47, 61, 63, 64], [(35, 39), (42, 43), (48, 57), (65, 90), (94, 96), (97, 122), (123, 126)], [2, 16, 3, 2, 2, 2, 4, 2, 2, 18, 18, 2, 18, 2, 1]⟩, ⟨[33, 45, 46, 47, 61, 63, 64], [(35, 39), (42, 43), (48, 57), (65, 90), (94, 96), (97, 122), (123, 126)], [2, 16, 3, 2, 2, 2, 4, 2, 2, 50, 50, 2, 50, 2, 1]⟩, [(1, 1), (2, 2), (3, 3), (4, 4), (16, 16), (18, 50)]⟩),
  (14, [(2, 2), (6, 6), (8, 8), (9, 9), (11, 11)], ⟨⟨[33, 45, 46, 47, 61, 63, 64], [(35, 39), (42, 43), (48, 57), (65, 90), (94, 96), (97, 122), (123, 126)], [2, 16, 19, 2, 2, 2, 4, 2, 2, 18, 18, 2, 18, 2, 1]⟩, ⟨[33, 45, 46, 47, 61, 63, 64], [(35, 39), (42, 43), (48, 57), (65, 90), (94, 96), (97, 122), (123, 126)], [2, 16, 51, 2, 2, 2, 4, 2, 2, 50, 50, 2, 50, 2, 1]⟩, [(1, 1), (2, 2), (4, 4), (16, 16), (18, 50), (19, 51)]⟩),
  (15, [(2, 2), (6, 6), (8, 8), (9, 9), (11, 11)], ⟨⟨[33, 45, 47, 61, 63, 98, 99, 101, 103, 105, 109, 110, 111], [(35, 39), (42, 43), (48, 57), (65, 90), (94, 96), (97, 122), (123, 126)], [2, 2, 2, 2, 2, 21, 22, 23, 24, 25, 26, 27, 28, 2, 2, 18, 20, 2, 20, 2, 1]⟩, ⟨[33, 45, 47, 61, 63, 98, 99, 101, 103, 105, 109, 110, 111], [(35, 39), (42, 43), (48, 57), (65, 90), (94, 96), (97, 122), (123, 126)], [2, 2, 2, 2, 2, 53, 54, 55, 56, 57, 58, 59, 60, 2, 2, 50, 52, 2, 52, 2, 1]⟩, [(1, 1), (2, 2), (18, 50), (20, 52), (21, 53), (22, 54), (23, 55), (24, 56), (25, 57), (26, 58), (27, 59), (28, 60)]⟩),
  (16, [(2, 2), (6, 6), (8, 8), (9, 9), (11, 11)], ⟨⟨[33, 45, 46, 47, 61, 63, 64], [(35, 39), (42, 43), (48, 57), (65, 90), (94, 96), (97, 122), (123, 126)], [2, 16, 19, 2, 2, 2, 4, 2, 2, 18, 29, 2, 29, 2, 1]⟩, ⟨[33, 45, 46, 47, 61, 63, 64], [(35, 39), (42, 43), (48, 57), (65, 90), (94, 96), (97, 122), (123, 126)], [2, 16, 51, 2, 2, 2, 4, 2, 2, 50, 61, 2, 61, 2, 1]⟩, [(1, 1), (2, 2), (4, 4), (16, 16), (18, 50), (19, 51), (29, 61)]⟩),
  (17, [(8, 8)], ⟨⟨[], [(48, 57)], [31, 30]⟩, ⟨[], [(48, 57)], [63, 62]⟩, [(30, 62), (31, 63)]⟩),
  (18, [(2, 2), (6, 6), (8, 8), (9, 9), (11, 11)], ⟨⟨[33, 45, 46, 47, 61, 63, 64, 105], [(35, 39), (42, 43), (48, 57), (65, 90), (94, 96), (97, 122), (123, 126)], [2, 16, 19, 2, 2, 2, 4, 32, 2, 2, 18, 29, 2, 29, 2, 1]⟩, ⟨[33, 45, 46, 47, 61, 63, 64, 105], [(35, 39), (42, 43), (48, 57), (65, 90), (94, 96), (97, 122), (123, 126)], [2, 16, 51, 2, 2, 2, 4, 64, 2, 2, 50, 61, 2, 61, 2, 1]⟩, [(1, 1), (2, 2), (4, 4), (16, 16), (18, 50), (19, 51), (29, 61), (32, 64)]⟩),
  (19, [(2, 2), (6, 6), (8, 8), (9, 9), (11, 11)], ⟨⟨[33, 45, 46, 47, 61, 63, 64, 111], [(35, 39), (42, 43), (48, 57), (65, 90), (94, 96), (97, 122), (123, 126)], [2, 16, 19, 2, 2, 2, 4, 33, 2, 2, 18, 29, 2, 29, 2, 1]⟩, ⟨[33, 45, 46, 47, 61, 63, 64, 111], [(35, 39), (42, 43), (48, 57), (65, 90), (94, 96), (97, 122), (123, 126)], [2, 16, 51, 2, 2, 2, 4, 65, 2, 2, 50, 61, 2, 61, 2, 1]⟩, [(1, 1), (2, 2), (4, 4), (16, 16), (18, 50), (19, 51), (29, 61), (33, 65)]⟩),
  (20, [(2, 2), (6, 6), (8, 8), (9, 9), (11, 11)], ⟨⟨[33, 45, 46, 47, 61, 63, 64, 100], [(35, 39), (42, 43), (48, 57), (65, 90), (94, 96), (97, 122), (123, 126)], [2, 16, 19, 2, 2, 2, 4, 34, 2, 2, 18, 29, 2, 29, 2, 1]⟩, ⟨[33, 45, 46, 47, 61, 63, 64, 100], [(35, 39), (42, 43), (48, 57), (65, 90), (94, 96), (97, 122), (123, 126)], [2, 16, 51, 2, 2, 2, 4, 66, 2, 2, 50, 61, 2, 61, 2, 1]⟩, [(1, 1), (2, 2), (4, 4), (16, 16), (18, 50), (19, 51), (29, 61), (34, 66)]⟩),
  (21, [(2, 2), (6, 6), (8, 8), (9, 9), (11, 11)], ⟨⟨[33, 45, 46, 47, 61, 63, 64, 111], [(35, 39), (42, 43), (48, 57), (65, 90), (94, 96), (97, 122), (123, 126)], [2, 16, 19, 2, 2, 2, 4, 35, 2, 2, 18, 29, 2, 29, 2, 1]⟩, ⟨[33, 45, 46, 47, 61, 63, 64, 111], [(35, 39), (42, 43), (48, 57), (65, 90), (94, 96), (97, 122), (123, 126)], [2, 16, 51, 2, 2, 2, 4, 67, 2, 2, 50, 61, 2, 61, 2, 1]⟩, [(1, 1), (2, 2), (4, 4), (16, 16), (18, 50), (19, 51), (29, 61), (35, 67)]⟩),
  (22, [(2, 2), (6, 6), (8, 8), (9, 9), (11, 11)], ⟨⟨[33, 45, 46, 47, 61, 63, 64, 110], [(35, 39), (42, 43), (48, 57), (65, 90), (94, 96), (97, 122), (123, 126)], [2, 16, 19, 2, 2, 2, 4, 36, 2, 2, 18, 29, 2, 29, 2, 1]⟩, ⟨[33, 45, 46, 47, 61, 63, 64, 110], [(35, 39), (42, 43), (48, 57), (65, 90), (94, 96), (97, 122), (123, 126)], [2, 16, 51, 2, 2, 2, 4, 68, 2, 2, 50, 61, 2, 61, 2, 1]⟩, [(1, 1), (2, 2), (4, 4), (16, 16), (18, 50), (19, 51), (29, 61), (36, 68)]⟩),
  (23, [(8, 8)], ⟨⟨[33, 45, 46, 47, 61, 63, 64, 111], [(35, 39), (42, 43), (48, 57), (65, 90), (94, 96), (97, 122), (123, 126)], [2, 16, 19, 2, 2, 2, 4, 29, 2, 2, 18, 18, 2, 18, 2, 30]⟩, ⟨[33, 45, 46, 47, 61, 63, 64, 111], [(35, 39), (42, 43), (48, 57), (65, 90), (94, 96), (97, 122), (123, 126)], [2, 16, 51, 2, 2, 2, 4, 61, 2, 2, 50, 50, 2, 50, 2, 62]⟩, [(2, 2), (4, 4), (16, 16), (18, 50), (19, 51), (29, 61), (30, 62)]⟩),
  (24, [(2, 2), (6, 6), (8, 8), (9, 9), (11, 11)], ⟨⟨[33, 45, 46, 47, 61, 63, 64, 105], [(35, 39), (42, 43), (48, 57), (65, 90), (94, 96), (97, 122), (123, 126)], [2, 16, 19, 2, 2, 2, 4, 37, 2, 2, 18, 29, 2, 29, 2, 1]⟩, ⟨[33, 45, 46, 47, 61, 63, 64, 105], [(35, 39), (42, 43), (48, 57), (65, 90), (94, 96), (97, 122), (123, 126)], [2, 16, 51, 2, 2, 2, 4, 69, 2, 2, 50, 61, 2, 61, 2, 1]⟩, [(1, 1), (2, 2), (4, 4), (16, 16), (18, 50), (19, 51), (29, 61), (37, 69)]⟩),
  (25, [(2, 2), (6, 6), (8, 8), (9, 9), (11, 11)], ⟨⟨[33, 45, 46, 47, 61, 63, 64, 101], [(35, 39), (42, 43), (48, 57), (65, 90), (94, 96), (97, 122), (123, 126)], [2, 16, 19, 2, 2, 2, 4, 38, 2, 2, 18, 29, 2, 29, 2, 1]⟩, ⟨[33, 45, 46, 47, 61, 63, 64, 101], [(35, 39), (42, 43), (48, 57), (65, 90), (94, 96), (97, 122), (123, 126)], [2, 16, 51, 2, 2, 2, 4, 70, 2, 2, 50, 61, 2, 61, 2, 1]⟩, [(1, 1), (2, 2), (4, 4), (16, 16), (18, 50), (19, 51), (29, 61), (38, 70)]⟩),
  (26, [(2, 2), (6, 6), (8, 8), (9, 9), (11, 11)], ⟨⟨[33, 45, 46, 47, 61, 63, 64, 114], [(35, 39), (42, 43), (48, 57), (65, 90), (94, 96), (97, 122), (123, 126)], [2, 16, 19, 2, 2, 2, 4, 39, 2, 2, 18, 29, 2, 29, 2, 1]⟩, ⟨[33, 45, 46, 47, 61, 63, 64, 114], [(35, 39), (42, 43), (48, 57), (65, 90), (94, 96), (97, 122), (123, 126)], [2, 16, 51, 2, 2, 2, 4, 71, 2, 2, 50, 61, 2, 61, 2, 1]⟩, [(1, 1), (2, 2), (4, 4), (16, 16), (18, 50), (19, 51), (29, 61), (39, 71)]⟩),
  (27, [(2, 2), (6, 6)], ⟨⟨[33, 46, 61, 63, 64], [(35, 39), (42, 43), (45, 47), (48, 57), (65, 90), (94, 96), (97, 122), (123, 126)], [2, 3, 2, 2, 4, 2, 2, 2, 40, 40, 2, 40, 2, 1]⟩, ⟨[33, 46, 61, 63, 64, 194, 195, 198, 199, 203, 205, 206, 207, 210, 212, 213, 214, 215, 216, 217, 219, 220, 221, 222, 223, 224, 225, 226, 227, 228, 233, 234, 237, 239, 240], [(35, 39), (42, 43), (45, 47), (48, 57), (65, 90), (94, 96), (97, 122), (123, 126), (196, 202), (208, 218), (229, 236)], [2, 3, 2, 2, 4, 18, 19, 21, 22, 23, 24, 25, 26, 27, 28, 29, 30, 31, 32, 33, 34, 35, 36, 37, 38, 39, 40, 41, 42, 43, 45, 46, 47, 48, 49, 2, 2, 2, 72, 72, 2, 72, 2, 20, 20, 44, 1]⟩, [(1, 1), (2, 2), (3, 3), (4, 4), (40, 72)]⟩),
  (214, [(6, 6)], ⟨⟨[33, 45, 47, 61, 63, 98, 99, 101, 103, 105, 109, 110, 111], [(35, 39), (42, 43), (48, 57), (65, 90), (94, 96), (97, 122), (123, 126)], [2, 2, 2, 2, 2, 21, 22, 23, 24, 25, 26, 27, 28, 2, 2, 42, 20, 2, 20, 2, 41]⟩, ⟨[33, 45, 47, 61, 63, 98, 99, 101, 103, 105, 109, 110, 111], [(35, 39), (42, 43), (48, 57), (65, 90), (94, 96), (97, 122), (123, 126)], [2, 2, 2, 2, 2, 53, 54, 55, 56, 57, 58, 59, 60, 2, 2, 228, 52, 2, 52, 2, 227]⟩, [(2, 2), (20, 52), (21, 53), (22, 54), (23, 55), (24, 56), (25, 57), (26, 58), (27, 59), (28, 60), (41, 227), (42, 228)]⟩),
  (215, [(2, 2), (6, 6)], ⟨⟨[47], [], [43, 1]⟩, ⟨[47], [], [229, 1]⟩, [(1, 1), (43, 229)]⟩),
  (216, [(2, 2), (6, 6)], ⟨⟨[95], [(44, 58), (64, 90), (97, 122)], [44, 44, 44, 44, 1]⟩, ⟨[95], [(44, 58), (64, 90), (97, 122)], [230, 230, 230, 230, 1]⟩, [(1, 1), (44, 230)]⟩),
  (587, [(2, 2), (9, 9)], ⟨⟨[33, 45, 47, 61, 63, 98, 99, 101, 103, 105, 109, 110, 111], [(35, 39), (42, 43), (48, 57), (65, 90), (94, 96), (97, 122), (123, 126)], [2, 2, 2, 2, 2, 46, 47, 48, 49, 50, 51, 52, 53, 2, 2, 18, 45, 2, 45, 2, 1]⟩, ⟨[33, 45, 47, 61, 63, 98, 99, 101, 103, 105, 109, 110, 111, 194, 195, 198, 199, 203, 205, 206, 207, 210, 212, 213, 214, 215, 216, 217, 219, 220, 221, 222, 223, 224, 225, 226, 227, 228, 233, 234, 237, 239, 240], [(35, 39), (42, 43), (48, 57), (65, 90), (94, 96), (97, 122), (123, 126), (196, 202), (208, 218), (229, 236)], [2, 2, 2, 2, 2, 550, 551, 552, 553, 554, 555, 556, 557, 558, 559, 561, 562, 563, 564, 565, 566, 567, 568, 569, 570, 571, 572, 573, 574, 575, 576, 577, 578, 579, 580, 581, 582, 583, 585, 586, 587, 588, 589, 2, 2, 50, 549, 2, 549, 2, 560, 560, 584, 1]⟩, [(1, 1), (2, 2), (18, 50), (45, 549), (46, 550), (47, 551), (48, 552), (49, 553), (50, 554), (51, 555), (52, 556), (53, 557)]⟩),
  (1144, [(2, 2)], ⟨⟨[47], [], [55, 54]⟩, ⟨[47], [], [1063, 744]⟩, [(54, 744), (55, 1063)]⟩),
  (1145, [(2, 2)], ⟨⟨[45, 47, 58, 64, 95], [(44, 46), (48, 57), (65, 90), (97, 122)], [56, 57, 44, 44, 56, 44, 56, 56, 56, 54]⟩, ⟨[45, 47, 58, 64, 95], [(44, 46), (48, 57), (65, 90), (97, 122)], [1064, 1065, 230, 230, 1064, 230, 1064, 1064, 1064, 744]⟩, [(44, 230), (54, 744), (56, 1064), (57, 1065)]⟩),
  (0, [], ⟨⟨[], [], []⟩, ⟨[], [], []⟩, []⟩),
  (0, [], ⟨⟨[], [], []⟩, ⟨[], [], []⟩, []⟩),
  (1306, [(4, 4), (8, 8), (13, 13)], ⟨⟨[33, 46, 61, 64], [(35, 39), (42, 43), (45, 57), (63, 90), (94, 126)], [2, 3, 2, 4, 2, 2, 2, 2, 2, 1]⟩, ⟨[33, 46, 61, 64], [(35, 39), (42, 43), (45, 57), (63, 90), (94, 126)], [2, 3, 2, 4, 2, 2, 2, 2, 2, 1]⟩, [(1, 1), (2, 2), (3, 3), (4, 4)]⟩),
  (1307, [(2, 2), (3, 3), (4, 4), (5, 5), (6, 6), (7, 1), (7, 7), (8, 8), (9, 9), (10, 10), (11, 11), (13, 13)], ⟨⟨[33, 46, 61, 63], [(35, 39), (42, 43), (45, 57), (65, 90), (94, 126)], [5, 69, 5, 5, 5, 5, 5, 5, 5, 68]⟩, ⟨[33, 46, 61, 63], [(35, 39), (42, 43), (45, 57), (65, 90), (94, 126)], [5, 1140, 5, 5, 5, 5, 5, 5, 5, 1139]⟩, [(5, 5), (68, 1139), (69, 1140)]⟩),
  (1308, [(13, 13)], ⟨⟨[34, 92], [(1, 8), (11, 12), (14, 31), (33, 127)], [12, 13, 11, 11, 11, 11, 70]⟩, ⟨[34, 92], [(1, 8), (11, 12), (14, 31), (33, 127)], [12, 13, 11, 11, 11, 11, 1141]⟩, [(11, 11), (12, 12), (13, 13), (70, 1141)]⟩),
  (1309, [(13, 13)], ⟨⟨[33, 46, 61, 64], [(35, 39), (42, 43), (45, 47), (48, 57), (63, 90), (94, 126)], [2, 3, 2, 4, 2, 2, 2, 71, 2, 2, 70]⟩, ⟨[33, 46, 61, 64], [(35, 39), (42, 43), (45, 47), (48, 57), (63, 90), (94, 126)], [2, 3, 2, 4, 2, 2, 2, 1142, 2, 2, 1141]⟩, [(2, 2), (3, 3), (4, 4), (70, 1141), (71, 1142)]⟩),
  (1310, [(10, 10)], ⟨⟨[33, 46, 61, 64], [(35, 39), (42, 43), (45, 47), (48, 57), (63, 90), (94, 126)], [2, 73, 2, 4, 2, 2, 2, 71, 2, 2, 72]⟩, ⟨[33, 46, 61, 64], [(35, 39), (42, 43), (45, 47), (48, 57), (63, 90), (94, 126)], [2, 1144, 2, 4, 2, 2, 2, 1142, 2, 2, 1143]⟩, [(2, 2), (4, 4), (71, 1142), (72, 1143), (73, 1144)]⟩),
  (1311, [(11, 11)], ⟨⟨[33, 46, 61, 64], [(35, 39), (42, 43), (45, 47), (48, 57), (63, 90), (94, 126)], [2, 3, 2, 4, 2, 2, 2, 15, 2, 2, 74]⟩, ⟨[33, 46, 61, 64], [(35, 39), (42, 43), (45, 47), (48, 57), (63, 90), (94, 126)], [2, 3, 2, 4, 2, 2, 2, 15, 2, 2, 1145]⟩, [(2, 2), (3, 3), (4, 4), (15, 15), (74, 1145)]⟩),
  (1312, [(6, 6)], ⟨⟨[33, 45, 46, 47, 58, 61, 63, 64, 95], [(35, 39), (42, 43), (48, 57), (65, 90), (94, 96), (97, 122), (123, 126)], [2, 76, 77, 2, 78, 2, 2, 4, 80, 2, 2, 64, 79, 2, 79, 2, 75]⟩, ⟨[33, 45, 46, 47, 58, 61, 63, 64, 95, 194, 195, 198, 199, 203, 205, 206, 207, 210, 212, 213, 214, 215, 216, 217, 219, 220, 221, 222, 223, 224, 225, 226, 227, 228, 233, 234, 237, 239, 240], [(35, 39), (42, 43), (48, 57), (65, 90), (94, 96), (97, 122), (123, 126), (196, 202), (208, 218), (229, 236)], [2, 1147, 1148, 2, 1149, 2, 2, 4, 1151, 18, 19, 21, 22, 23, 24, 25, 26, 27, 28, 29, 30, 31, 32, 33, 34, 35, 36, 37, 38, 39, 40, 41, 42, 43, 45, 46, 47, 48, 49, 2, 2, 1103, 1150, 2, 1150, 2, 20, 20, 44, 1146]⟩, [(2, 2), (4, 4), (64, 1103), (75, 1146), (76, 1147), (77, 1148), (78, 1149), (79, 1150), (80, 1151)]⟩),
  (1313, [(8, 8)], ⟨⟨[33, 45, 46, 47, 58, 61, 63, 64], [(35, 39), (42, 43), (48, 57), (65, 90), (94, 96), (97, 122), (123, 126)], [2, 16, 19, 82, 83, 2, 2, 4, 2, 2, 18, 18, 2, 18, 2, 81]⟩, ⟨[33, 45, 46, 47, 58, 61, 63, 64], [(35, 39), (42, 43), (48, 57), (65, 90), (94, 96), (97, 122), (123, 126)], [2, 16, 51, 1153, 1154, 2, 2, 4, 2, 2, 50, 50, 2, 50, 2, 1152]⟩, [(2, 2), (4, 4), (16, 16), (18, 50), (19, 51), (81, 1152), (82, 1153), (83, 1154)]⟩),
  (1314, [(8, 8)], ⟨⟨[47], [(48, 57)], [84, 31, 81]⟩, ⟨[47], [(48, 57)], [1155, 63, 1152]⟩, [(31, 63), (81, 1152), (84, 1155)]⟩),
  (1315, [(8, 8)], ⟨⟨[33, 45, 46, 47, 58, 61, 63, 64, 122], [(35, 39), (42, 43), (48, 57), (65, 90), (94, 96), (97, 121), (123, 126)], [2, 16, 19, 82, 83, 2, 2, 4, 29, 2, 2, 18, 18, 2, 18, 2, 81]⟩, ⟨[33, 45, 46, 47, 58, 61, 63, 64, 122], [(35, 39), (42, 43), (48, 57), (65, 90), (94, 96), (97, 121), (123, 126)], [2, 16, 51, 1153, 1154, 2, 2, 4, 61, 2, 2, 50, 50, 2, 50, 2, 1152]⟩, [(2, 2), (4, 4), (16, 16), (18, 50), (19, 51), (29, 61), (81, 1152), (82, 1153), (83, 1154)]⟩),
  (1316, [(8, 8)], ⟨⟨[33, 45, 46, 47, 58, 61, 63, 64, 109], [(35, 39), (42, 43), (48, 57), (65, 90), (94, 96), (97, 122), (123, 126)], [2, 16, 19, 82, 83, 2, 2, 4, 29, 2, 2, 18, 18, 2, 18, 2, 81]⟩, ⟨[33, 45, 46, 47, 58, 61, 63, 64, 109], [(35, 39), (42, 43), (48, 57), (65, 90), (94, 96), (97, 122), (123, 126)], [2, 16, 51, 1153, 1154, 2, 2, 4, 61, 2, 2, 50, 50, 2, 50, 2, 1152]⟩, [(2, 2), (4, 4), (16, 16), (18, 50), (19, 51), (29, 61), (81, 1152), (82, 1153), (83, 1154)]⟩),
  (1317, [(8, 8)], ⟨⟨[33, 45, 46, 47, 58, 61, 63, 64, 117], [(35, 39), (42, 43), (48, 57), (65, 90), (94, 96), (97, 122), (123, 126)], [2, 16, 19, 82, 83, 2, 2, 4, 29, 2, 2, 18, 18, 2, 18, 2, 81]⟩, ⟨[33, 45, 46, 47, 58, 61, 63, 64, 117], [(35, 39), (42, 43), (48, 57), (65, 90), (94, 96), (97, 122), (123, 126)], [2, 16, 51, 1153, 1154, 2, 2, 4, 61, 2, 2, 50, 50, 2, 50, 2, 1152]⟩, [(2, 2), (4, 4), (16, 16), (18, 50), (19, 51), (29, 61), (81, 1152), (82, 1153), (83, 1154)]⟩),
  (1318, [(8, 8)], ⟨⟨[33, 45, 46, 47, 58, 61, 63, 64, 118], [(35, 39), (42, 43), (48, 57), (65, 90), (94, 96), (97, 122), (123, 126)], [2, 16, 19, 82, 83, 2, 2, 4, 29, 2, 2, 18, 18, 2, 18, 2, 81]⟩, ⟨[33, 45, 46, 47, 58, 61, 63, 64, 118], [(35, 39), (42, 43), (48, 57), (65, 90), (94, 96), (97, 122), (123, 126)], [2, 16, 51, 1153, 1154, 2, 2, 4, 61, 2, 2, 50, 50, 2, 50, 2, 1152]⟩, [(2, 2), (4, 4), (16, 16), (18, 50), (19, 51), (29, 61), (81, 1152), (82, 1153), (83, 1154)]⟩),
  (1319, [(8, 8)], ⟨⟨[33, 45, 46, 47, 58, 61, 63, 64, 102, 116], [(35, 39), (42, 43), (48, 57), (65, 90), (94, 96), (97, 122), (123, 126)], [2, 16, 19, 82, 83, 2, 2, 4, 85, 29, 2, 2, 18, 18, 2, 18, 2, 81]⟩, ⟨[33, 45, 46, 47, 58, 61, 63, 64, 102, 116], [(35, 39), (42, 43), (48, 57), (65, 90), (94, 96), (97, 122), (123, 126)], [2, 16, 51, 1153, 1154, 2, 2, 4, 1156, 61, 2, 2, 50, 50, 2, 50, 2, 1152]⟩, [(2, 2), (4, 4), (16, 16), (18, 50), (19, 51), (29, 61), (81, 1152), (82, 1153), (83, 1154), (85, 1156)]⟩),
  (1320, [(8, 8)], ⟨⟨[33, 45, 46, 47, 58, 61, 63, 64, 108], [(35, 39), (42, 43), (48, 57), (65, 90), (94, 96), (97, 122), (123, 126)], [2, 16, 19, 82, 83, 2, 2, 4, 29, 2, 2, 18, 18, 2, 18, 2, 81]⟩, ⟨[33, 45, 46, 47, 58, 61, 63, 64, 108], [(35, 39), (42, 43), (48, 57), (65, 90), (94, 96), (97, 122), (123, 126)], [2, 16, 51, 1153, 1154, 2, 2, 4, 61, 2, 2, 50, 50, 2, 50, 2, 1152]⟩, [(2, 2), (4, 4), (16, 16), (18, 50), (19, 51), (29, 61), (81, 1152), (82, 1153), (83, 1154)]⟩),
  (1321, [(8, 8)], ⟨⟨[33, 45, 46, 47, 58, 61, 63, 64, 116], [(35, 39), (42, 43), (48, 57), (65, 90), (94, 96), (97, 122), (123, 126)], [2, 16, 19, 82, 83, 2, 2, 4, 29, 2, 2, 18, 18, 2, 18, 2, 81]⟩, ⟨[33, 45, 46, 47, 58, 61, 63, 64, 116], [(35, 39), (42, 43), (48, 57), (65, 90), (94, 96), (97, 122), (123, 126)], [2, 16, 51, 1153, 1154, 2, 2, 4, 61, 2, 2, 50, 50, 2, 50, 2, 1152]⟩, [(2, 2), (4, 4), (16, 16), (18, 50), (19, 51), (29, 61), (81, 1152), (82, 1153), (83, 1154)]⟩),
  (1322, [(8, 8)], ⟨⟨[33, 45, 46, 47, 58, 61, 63, 64, 103], [(35, 39), (42, 43), (48, 57), (65, 90), (94, 96), (97, 122), (123, 126)], [2, 16, 19, 82, 83, 2, 2, 4, 29, 2, 2, 18, 18, 2, 18, 2, 81]⟩, ⟨[33, 45, 46, 47, 58, 61, 63, 64, 103], [(35, 39), (42, 43), (48, 57), (65, 90), (94, 96), (97, 122), (123, 126)], [2, 16, 51, 1153, 1154, 2, 2, 4, 61, 2, 2, 50, 50, 2, 50, 2, 1152]⟩, [(2, 2), (4, 4), (16, 16), (18, 50), (19, 51), (29, 61), (81, 1152), (82, 1153), (83, 1154)]⟩),
  (1323, [(6, 6)], ⟨⟨[33, 45, 46, 47, 61, 63, 64, 95], [(35, 39), (42, 43), (48, 57), (65, 90), (94, 96), (97, 122), (123, 126)], [2, 76, 19, 2, 2, 2, 4, 80, 2, 2, 17, 17, 2, 17, 2, 75]⟩, ⟨[33, 45, 46, 47, 61, 63, 64, 95, 194, 195, 198, 199, 203, 205, 206, 207, 210, 212, 213, 214, 215, 216, 217, 219, 220, 221, 222, 223, 224, 225, 226, 227, 228, 233, 234, 237, 239, 240], [(35, 39), (42, 43), (48, 57), (65, 90), (94, 96), (97, 122), (123, 126), (196, 202), (208, 218), (229, 236)], [2, 1147, 51, 2, 2, 2, 4, 1151, 18, 19, 21, 22, 23, 24, 25, 26, 27, 28, 29, 30, 31, 32, 33, 34, 35, 36, 37, 38, 39, 40, 41, 42, 43, 45, 46, 47, 48, 49, 2, 2, 17, 17, 2, 17, 2, 20, 20, 44, 1146]⟩, [(2, 2), (4, 4), (17, 17), (19, 51), (75, 1146), (76, 1147), (80, 1151)]⟩),
  (1324, [(6, 6)], ⟨⟨[33, 45, 46, 47, 61, 63, 64, 95], [(35, 39), (42, 43), (48, 57), (65, 90), (94, 96), (97, 122), (123, 126)], [2, 80, 3, 2, 2, 2, 4, 80, 2, 2, 40, 40, 2, 40, 2, 75]⟩, ⟨[33, 45, 46, 47, 61, 63, 64, 95, 194, 195, 198, 199, 203, 205, 206, 207, 210, 212, 213, 214, 215, 216, 217, 219, 220, 221, 222, 223, 224, 225, 226, 227, 228, 233, 234, 237, 239, 240], [(35, 39), (42, 43), (48, 57), (65, 90), (94, 96), (97, 122), (123, 126), (196, 202), (208, 218), (229, 236)], [2, 1151, 3, 2, 2, 2, 4, 1151, 18, 19, 21, 22, 23, 24, 25, 26, 27, 28, 29, 30, 31, 32, 33, 34, 35, 36, 37, 38, 39, 40, 41, 42, 43, 45, 46, 47, 48, 49, 2, 2, 72, 72, 2, 72, 2, 20, 20, 44, 1146]⟩, [(2, 2), (3, 3), (4, 4), (40, 72), (75, 1146), (80, 1151)]⟩),
  (1326, [(11, 11)], ⟨⟨[33, 45, 46, 47, 61, 63, 64], [(35, 39), (42, 43), (48, 57), (65, 90), (94, 96), (97, 122), (123, 126)], [2, 16, 19, 2, 2, 2, 4, 2, 2, 42, 18, 2, 18, 2, 74]⟩, ⟨[33, 45, 46, 47, 61, 63, 64], [(35, 39), (42, 43), (48, 57), (65, 90), (94, 96), (97, 122), (123, 126)], [2, 16, 51, 2, 2, 2, 4, 2, 2, 228, 50, 2, 50, 2, 1145]⟩, [(2, 2), (4, 4), (16, 16), (18, 50), (19, 51), (42, 228), (74, 1145)]⟩),
  (1327, [(2, 2), (6, 6)], ⟨⟨[47, 95], [(44, 58), (64, 90), (97, 122)], [86, 44, 44, 44, 44, 81]⟩, ⟨[47, 95], [(44, 58), (64, 90), (97, 122)], [1158, 230, 230, 230, 230, 1152]⟩, [(44, 230), (81, 1152), (86, 1158)]⟩),
  (1328, [(6, 6)], ⟨⟨[33, 45, 46, 47, 58, 61, 63, 64, 95], [(35, 39), (42, 43), (48, 57), (65, 90), (94, 96), (97, 122), (123, 126)], [2, 76, 19, 2, 78, 2, 2, 4, 80, 2, 2, 79, 79, 2, 79, 2, 75]⟩, ⟨[33, 45, 46, 47, 58, 61, 63, 64, 95, 194, 195, 198, 199, 203, 205, 206, 207, 210, 212, 213, 214, 215, 216, 217, 219, 220, 221, 222, 223, 224, 225, 226, 227, 228, 233, 234, 237, 239, 240], [(35, 39), (42, 43), (48, 57), (65, 90), (94, 96), (97, 122), (123, 126), (196, 202), (208, 218), (229, 236)], [2, 1147, 51, 2, 1149, 2, 2, 4, 1151, 18, 19, 21, 22, 23, 24, 25, 26, 27, 28, 29, 30, 31, 32, 33, 34, 35, 36, 37, 38, 39, 40, 41, 42, 43, 45, 46, 47, 48, 49, 2, 2, 1150, 1150, 2, 1150, 2, 20, 20, 44, 1146]⟩, [(2, 2), (4, 4), (19, 51), (75, 1146), (76, 1147), (78, 1149), (79, 1150), (80, 1151)]⟩),
  (1329, [(2, 2)], ⟨⟨[33, 38, 39, 45, 46, 47, 58, 61, 63, 64, 95], [(35, 37), (42, 43), (48, 57), (65, 90), (94, 96), (97, 122), (123, 126)], [2, 88, 89, 76, 90, 2, 78, 2, 2, 92, 80, 2, 2, 91, 93, 2, 93, 2, 87]⟩, ⟨[33, 38, 39, 45, 46, 47, 58, 61, 63, 64, 95, 194, 195, 198, 199, 203, 205, 206, 207, 210, 212, 213, 214, 215, 216, 217, 219, 220, 221, 222, 223, 224, 225, 226, 227, 228, 233, 234, 237, 239, 240], [(35, 37), (42, 43), (48, 57), (65, 90), (94, 96), (97, 122), (123, 126), (196, 202), (208, 218), (229, 236)], [2, 1160, 1161, 1147, 1162, 2, 1149, 2, 2, 1164, 1151, 1166, 1167, 969, 936, 1168, 1169, 1170, 1171, 1172, 1173, 1174, 1175, 1176, 1177, 1178, 1179, 1180, 1181, 1016, 1182, 1183, 1184, 1185, 1186, 1187, 1188, 1189, 1190, 1191, 1192, 2, 2, 1163, 1165, 2, 1165, 2, 948, 948, 1032, 1159]⟩, [(2, 2), (76, 1147), (78, 1149), (80, 1151), (87, 1159), (88, 1160), (89, 1161), (90, 1162), (91, 1163), (92, 1164), (93, 1165)]⟩),
  (1330, [(7, 7)], ⟨⟨[33, 46, 61, 63, 64], [(35, 39), (42, 43), (45, 57), (65, 90), (94, 96), (97, 122), (123, 126)], [2, 3, 2, 2, 4, 2, 2, 2, 95, 2, 95, 2, 94]⟩, ⟨[33, 46, 61, 63, 64, 194, 195, 198, 199, 203, 205, 206, 207, 210, 212, 213, 214, 215, 216, 217, 219, 220, 221, 222, 223, 224, 225, 226, 227, 228, 233, 234, 237, 239, 240], [(35, 39), (42, 43), (45, 57), (65, 90), (94, 96), (97, 122), (123, 126), (196, 202), (208, 218), (229, 236)], [2, 3, 2, 2, 4, 1195, 1196, 296, 263, 1197, 1198, 1199, 1200, 1201, 1202, 1203, 1204, 1205, 1206, 1207, 1208, 1209, 1210, 343, 1211, 1212, 1213, 1214, 1215, 1216, 1217, 1218, 1219, 1220, 1221, 2, 2, 2, 1194, 2, 1194, 2, 275, 275, 359, 1193]⟩, [(2, 2), (3, 3), (4, 4), (94, 1193), (95, 1194)]⟩),
  (1331, [(7, 7)], ⟨⟨[33, 46, 61, 63, 64], [(35, 39), (42, 43), (45, 47), (48, 57), (65, 90), (94, 96), (97, 122), (123, 126)], [2, 3, 2, 2, 4, 2, 2, 2, 95, 95, 2, 95, 2, 94]⟩, ⟨[33, 46, 61, 63, 64, 194, 195, 198, 199, 203, 205, 206, 207, 210, 212, 213, 214, 215, 216, 217, 219, 220, 221, 222, 223, 224, 225, 226, 227, 228, 233, 234, 237, 239, 240], [(35, 39), (42, 43), (45, 47), (48, 57), (65, 90), (94, 96), (97, 122), (123, 126), (196, 202), (208, 218), (229, 236)], [2, 3, 2, 2, 4, 1195, 1196, 296, 263, 1197, 1198, 1199, 1200, 1201, 1202, 1203, 1204, 1205, 1206, 1207, 1208, 1209, 1210, 343, 1211, 1212, 1213, 1214, 1215, 1216, 1217, 1218, 1219, 1220, 1221, 2, 2, 2, 1194, 1194, 2, 1194, 2, 275, 275, 359, 1193]⟩, [(2, 2), (3, 3), (4, 4), (94, 1193), (95, 1194)]⟩),
  (1333, [(3, 3)], ⟨⟨[33, 46, 61, 63, 64, 83, 115], [(35, 39), (42, 43), (45, 57), (65, 90), (94, 96), (97, 122), (123, 126)], [2, 3, 2, 2, 4, 98, 98, 2, 2, 2, 97, 2, 97, 2, 96]⟩, ⟨[33, 46, 61, 63, 64, 83, 115, 194, 195, 198, 199, 203, 205, 206, 207, 210, 212, 213, 214, 215, 216, 217, 219, 220, 221, 222, 223, 224, 225, 226, 227, 228, 233, 234, 237, 239, 240], [(35, 39), (42, 43), (45, 57), (65, 90), (94, 96), (97, 122), (123, 126), (196, 202), (208, 218), (229, 236)], [2, 3, 2, 2, 4, 1224, 1224, 1225, 1226, 455, 422, 1227, 1228, 1229, 1230, 1231, 1232, 1233, 1234, 1235, 1236, 1237, 1238, 1239, 1240, 502, 1241, 1242, 1243, 1244, 1245, 1246, 1247, 1248, 1249, 1250, 1251, 2, 2, 2, 1223, 2, 1223, 2, 434, 434, 518, 1222]⟩, [(2, 2), (3, 3), (4, 4), (96, 1222), (97, 1223), (98, 1224)]⟩),
  (1334, [(4, 4), (5, 5)], ⟨⟨[33, 46, 61, 63, 64], [(35, 39), (42, 43), (45, 57), (65, 90), (94, 96), (97, 122), (123, 126)], [2, 3, 2, 2, 4, 2, 2, 2, 97, 2, 97, 2, 1]⟩, ⟨[33, 46, 61, 63, 64, 194, 195, 198, 199, 203, 205, 206, 207, 210, 212, 213, 214, 215, 216, 217, 219, 220, 221, 222, 223, 224, 225, 226, 227, 228, 233, 234, 237, 239, 240], [(35, 39), (42, 43), (45, 57), (65, 90), (94, 96), (97, 122), (123, 126), (196, 202), (208, 218), (229, 236)], [2, 3, 2, 2, 4, 1225, 1226, 455, 422, 1227, 1228, 1229, 1230, 1231, 1232, 1233, 1234, 1235, 1236, 1237, 1238, 1239, 1240, 502, 1241, 1242, 1243, 1244, 1245, 1246, 1247, 1248, 1249, 1250, 1251, 2, 2, 2, 1223, 2, 1223, 2, 434, 434, 518, 1]⟩, [(1, 1), (2, 2), (3, 3), (4, 4), (97, 1223)]⟩),
  (1336, [(9, 9)], ⟨⟨[33, 45, 46, 47, 61, 63, 64], [(35, 39), (42, 43), (48, 57), (65, 90), (94, 96), (97, 122), (123, 126)], [2, 16, 90, 2, 2, 2, 4, 2, 2, 18, 29, 2, 29, 2, 99]⟩, ⟨[33, 45, 46, 47, 61, 63, 64], [(35, 39), (42, 43), (48, 57), (65, 90), (94, 96), (97, 122), (123, 126)], [2, 16, 1162, 2, 2, 2, 4, 2, 2, 50, 61, 2, 61, 2, 1252]⟩, [(2, 2), (4, 4), (16, 16), (18, 50), (29, 61), (90, 1162), (99, 1252)]⟩),
  (1337, [(9, 9)], ⟨⟨[33, 45, 46, 47, 61, 63, 64, 105], [(35, 39), (42, 43), (48, 57), (65, 90), (94, 96), (97, 122), (123, 126)], [2, 16, 90, 2, 2, 2, 4, 32, 2, 2, 18, 29, 2, 29, 2, 99]⟩, ⟨[33, 45, 46, 47, 61, 63, 64, 105], [(35, 39), (42, 43), (48, 57), (65, 90), (94, 96), (97, 122), (123, 126)], [2, 16, 1162, 2, 2, 2, 4, 64, 2, 2, 50, 61, 2, 61, 2, 1252]⟩, [(2, 2), (4, 4), (16, 16), (18, 50), (29, 61), (32, 64), (90, 1162), (99, 1252)]⟩),
  (1338, [(9, 9)], ⟨⟨[33, 45, 46, 47, 61, 63, 64, 111], [(35, 39), (42, 43), (48, 57), (65, 90), (94, 96), (97, 122), (123, 126)], [2, 16, 90, 2, 2, 2, 4, 33, 2, 2, 18, 29, 2, 29, 2, 99]⟩, ⟨[33, 45, 46, 47, 61, 63, 64, 111], [(35, 39), (42, 43), (48, 57), (65, 90), (94, 96), (97, 122), (123, 126)], [2, 16, 1162, 2, 2, 2, 4, 65, 2, 2, 50, 61, 2, 61, 2, 1252]⟩, [(2, 2), (4, 4), (16, 16), (18, 50), (29, 61), (33, 65), (90, 1162), (99, 1252)]⟩),
  (1339, [(9, 9)], ⟨⟨[33, 45, 46, 47, 61, 63, 64, 100], [(35, 39), (42, 43), (48, 57), (65, 90), (94, 96), (97, 122), (123, 126)], [2, 16, 90, 2, 2, 2, 4, 34, 2, 2, 18, 29, 2, 29, 2, 99]⟩, ⟨[33, 45, 46, 47, 61, 63, 64, 100], [(35, 39), (42, 43), (48, 57), (65, 90), (94, 96), (97, 122), (123, 126)], [2, 16, 1162, 2, 2, 2, 4, 66, 2, 2, 50, 61, 2, 61, 2, 1252]⟩, [(2, 2), (4, 4), (16, 16), (18, 50), (29, 61), (34, 66), (90, 1162), (99, 1252)]⟩),
  (1340, [(9, 9)], ⟨⟨[33, 45, 46, 47, 61, 63, 64, 111], [(35, 39), (42, 43), (48, 57), (65, 90), (94, 96), (97, 122), (123, 126)], [2, 16, 90, 2, 2, 2, 4, 35, 2, 2, 18, 29, 2, 29, 2, 99]⟩, ⟨[33, 45, 46, 47, 61, 63, 64, 111], [(35, 39), (42, 43), (48, 57), (65, 90), (94, 96), (97, 122), (123, 126)], [2, 16, 1162, 2, 2, 2, 4, 67, 2, 2, 50, 61, 2, 61, 2, 1252]⟩, [(2, 2), (4, 4), (16, 16), (18, 50), (29, 61), (35, 67), (90, 1162), (99, 1252)]⟩),
  (1341, [(9, 9)], ⟨⟨[33, 45, 46, 47, 61, 63, 64, 110], [(35, 39), (42, 43), (48, 57), (65, 90), (94, 96), (97, 122), (123, 126)], [2, 16, 90, 2, 2, 2, 4, 36, 2, 2, 18, 29, 2, 29, 2, 99]⟩, ⟨[33, 45, 46, 47, 61, 63, 64, 110], [(35, 39), (42, 43), (48, 57), (65, 90), (94, 96), (97, 122), (123, 126)], [2, 16, 1162, 2, 2, 2, 4, 68, 2, 2, 50, 61, 2, 61, 2, 1252]⟩, [(2, 2), (4, 4), (16, 16), (18, 50), (29, 61), (36, 68), (90, 1162), (99, 1252)]⟩),
  (1342, [(9, 9)], ⟨⟨[33, 45, 46, 47, 61, 63, 64, 105], [(35, 39), (42, 43), (48, 57), (65, 90), (94, 96), (97, 122), (123, 126)], [2, 16, 90, 2, 2, 2, 4, 37, 2, 2, 18, 29, 2, 29, 2, 99]⟩, ⟨[33, 45, 46, 47, 61, 63, 64, 105], [(35, 39), (42, 43), (48, 57), (65, 90), (94, 96), (97, 122), (123, 126)], [2, 16, 1162, 2, 2, 2, 4, 69, 2, 2, 50, 61, 2, 61, 2, 1252]⟩, [(2, 2), (4, 4), (16, 16), (18, 50), (29, 61), (37, 69), (90, 1162), (99, 1252)]⟩),
  (1343, [(9, 9)], ⟨⟨[33, 45, 46, 47, 61, 63, 64, 101], [(35, 39), (42, 43), (48, 57), (65, 90), (94, 96), (97, 122), (123, 126)], [2, 16, 90, 2, 2, 2, 4, 38, 2, 2, 18, 29, 2, 29, 2, 99]⟩, ⟨[33, 45, 46, 47, 61, 63, 64, 101], [(35, 39), (42, 43), (48, 57), (65, 90), (94, 96), (97, 122), (123, 126)], [2, 16, 1162, 2, 2, 2, 4, 70, 2, 2, 50, 61, 2, 61, 2, 1252]⟩, [(2, 2), (4, 4), (16, 16), (18, 50), (29, 61), (38, 70), (90, 1162), (99, 1252)]⟩),
  (1344, [(9, 9)], ⟨⟨[33, 45, 46, 47, 61, 63, 64, 114], [(35, 39), (42, 43), (48, 57), (65, 90), (94, 96), (97, 122), (123, 126)], [2, 16, 90, 2, 2, 2, 4, 39, 2, 2, 18, 29, 2, 29, 2, 99]⟩, ⟨[33, 45, 46, 47, 61, 63, 64, 114], [(35, 39), (42, 43), (48, 57), (65, 90), (94, 96), (97, 122), (123, 126)], [2, 16, 1162, 2, 2, 2, 4, 71, 2, 2, 50, 61, 2, 61, 2, 1252]⟩, [(2, 2), (4, 4), (16, 16), (18, 50), (29, 61), (39, 71), (90, 1162), (99, 1252)]⟩),
  (1346, [(2, 2)], ⟨⟨[33, 38, 39, 45, 46, 47, 58, 61, 63, 64, 95], [(35, 37), (42, 43), (48, 57), (65, 90), (94, 96), (97, 122), (123, 126)], [2, 88, 100, 76, 19, 2, 78, 2, 2, 92, 80, 2, 2, 91, 91, 2, 91, 2, 87]⟩, ⟨[33, 38, 39, 45, 46, 47, 58, 61, 63, 64, 95, 194, 195, 198, 199, 203, 205, 206, 207, 210, 212, 213, 214, 215, 216, 217, 219, 220, 221, 222, 223, 224, 225, 226, 227, 228, 233, 234, 237, 239, 240], [(35, 37), (42, 43), (48, 57), (65, 90), (94, 96), (97, 122), (123, 126), (196, 202), (208, 218), (229, 236)], [2, 1160, 1254, 1147, 51, 2, 1149, 2, 2, 1164, 1151, 1255, 1256, 810, 777, 1257, 1258, 1259, 1260, 1261, 1262, 1263, 1264, 1265, 1266, 1267, 1268, 1269, 1270, 857, 1271, 1272, 1273, 1274, 1275, 1276, 1277, 1278, 1279, 1280, 1281, 2, 2, 1163, 1163, 2, 1163, 2, 789, 789, 873, 1159]⟩, [(2, 2), (19, 51), (76, 1147), (78, 1149), (80, 1151), (87, 1159), (88, 1160), (91, 1163), (92, 1164), (100, 1254)]⟩),
  (1347, [(3, 3)], ⟨⟨[33, 46, 61, 64, 83, 115], [(35, 39), (42, 43), (45, 57), (63, 90), (94, 126)], [2, 3, 2, 4, 101, 101, 2, 2, 2, 2, 2, 96]⟩, ⟨[33, 46, 61, 64, 83, 115], [(35, 39), (42, 43), (45, 57), (63, 90), (94, 126)], [2, 3, 2, 4, 1282, 1282, 2, 2, 2, 2, 2, 1222]⟩, [(2, 2), (3, 3), (4, 4), (96, 1222), (101, 1282)]⟩),
  (1348, [(7, 7)], ⟨⟨[33, 45, 61, 63, 91], [(35, 39), (42, 43), (47, 57), (65, 90), (94, 96), (97, 122), (123, 126)], [5, 5, 5, 5, 6, 5, 5, 5, 102, 5, 102, 5, 94]⟩, ⟨[33, 45, 61, 63, 91, 194, 195, 198, 199, 203, 205, 206, 207, 210, 212, 213, 214, 215, 216, 217, 219, 220, 221, 222, 223, 224, 225, 226, 227, 228, 233, 234, 237, 239, 240], [(35, 39), (42, 43), (47, 57), (65, 90), (94, 96), (97, 122), (123, 126), (196, 202), (208, 218), (229, 236)], [5, 5, 5, 5, 6, 1195, 1196, 296, 263, 1197, 1198, 1199, 1200, 1201, 1202, 1203, 1204, 1205, 1206, 1207, 1208, 1209, 1210, 343, 1211, 1212, 1213, 1214, 1215, 1216, 1217, 1218, 1219, 1220, 1221, 5, 5, 5, 1283, 5, 1283, 5, 275, 275, 359, 1193]⟩, [(5, 5), (6, 6), (94, 1193), (102, 1283)]⟩),
  (1349, [(7, 1)], ⟨⟨[33, 46, 61, 63], [(35, 39), (42, 43), (45, 47), (48, 57), (65, 90), (94, 96), (97, 122), (123, 126)], [5, 69, 5, 5, 5, 5, 5, 102, 102, 5, 102, 5, 68]⟩, ⟨[33, 46, 61, 63, 194, 195, 198, 199, 203, 205, 206, 207, 210, 212, 213, 214, 215, 216, 217, 219, 220, 221, 222, 223, 224, 225, 226, 227, 228, 233, 234, 237, 239, 240], [(35, 39), (42, 43), (45, 47), (48, 57), (65, 90), (94, 96), (97, 122), (123, 126), (196, 202), (208, 218), (229, 236)], [5, 1140, 5, 5, 1195, 1196, 296, 263, 1197, 1198, 1199, 1200, 1201, 1202, 1203, 1204, 1205, 1206, 1207, 1208, 1209, 1210, 343, 1211, 1212, 1213, 1214, 1215, 1216, 1217, 1218, 1219, 1220, 1221, 5, 5, 5, 1283, 1283, 5, 1283, 5, 275, 275, 359, 1139]⟩, [(5, 5), (68, 1139), (69, 1140), (102, 1283)]⟩),
  (1353, [(2, 2)], ⟨⟨[33, 38, 39, 45, 46, 47, 58, 61, 63, 64, 95], [(35, 37), (42, 43), (48, 57), (65, 90), (94, 96), (97, 122), (123, 126)], [2, 88, 89, 76, 19, 2, 78, 2, 2, 92, 80, 2, 2, 91, 93, 2, 93, 2, 87]⟩, ⟨[33, 38, 39, 45, 46, 47, 58, 61, 63, 64, 95, 194, 195, 198, 199, 203, 205, 206, 207, 210, 212, 213, 214, 215, 216, 217, 219, 220, 221, 222, 223, 224, 225, 226, 227, 228, 233, 234, 237, 239, 240], [(35, 37), (42, 43), (48, 57), (65, 90), (94, 96), (97, 122), (123, 126), (196, 202), (208, 218), (229, 236)], [2, 1160, 1161, 1147, 51, 2, 1149, 2, 2, 1164, 1151, 1166, 1167, 969, 936, 1168, 1169, 1170, 1171, 1172, 1173, 1174, 1175, 1176, 1177, 1178, 1179, 1180, 1181, 1016, 1182, 1183, 1184, 1185, 1186, 1187, 1188, 1189, 1190, 1191, 1192, 2, 2, 1163, 1165, 2, 1165, 2, 948, 948, 1032, 1159]⟩, [(2, 2), (19, 51), (76, 1147), (78, 1149), (80, 1151), (87, 1159), (88, 1160), (89, 1161), (91, 1163), (92, 1164), (93, 1165)]⟩),
  (1356, [(2, 2)], ⟨⟨[33, 38, 39, 45, 46, 47, 58, 61, 63, 64, 95, 105, 116], [(35, 37), (42, 43), (48, 57), (65, 90), (94, 96), (97, 122), (123, 126)], [2, 88, 89, 76, 90, 2, 78, 2, 2, 92, 80, 103, 104, 2, 2, 91, 93, 2, 93, 2, 87]⟩, ⟨[33, 38, 39, 45, 46, 47, 58, 61, 63, 64, 95, 105, 116, 194, 195, 198, 199, 203, 205, 206, 207, 210, 212, 213, 214, 215, 216, 217, 219, 220, 221, 222, 223, 224, 225, 226, 227, 228, 233, 234, 237, 239, 240], [(35, 37), (42, 43), (48, 57), (65, 90), (94, 96), (97, 122), (123, 126), (196, 202), (208, 218), (229, 236)], [2, 1160, 1161, 1147, 1162, 2, 1149, 2, 2, 1164, 1151, 1289, 1290, 1166, 1167, 969, 936, 1168, 1169, 1170, 1171, 1172, 1173, 1174, 1175, 1176, 1177, 1178, 1179, 1180, 1181, 1016, 1182, 1183, 1184, 1185, 1186, 1187, 1188, 1189, 1190, 1191, 1192, 2, 2, 1163, 1165, 2, 1165, 2, 948, 948, 1032, 1159]⟩, [(2, 2), (76, 1147), (78, 1149), (80, 1151), (87, 1159), (88, 1160), (89, 1161), (90, 1162), (91, 1163), (92, 1164), (93, 1165), (103, 1289), (104, 1290)]⟩),
  (1357, [(2, 2)], ⟨⟨[33, 38, 39, 45, 46, 47, 58, 61, 63, 64, 95, 108], [(35, 37), (42, 43), (48, 57), (65, 90), (94, 96), (97, 122), (123, 126)], [2, 88, 89, 76, 19, 2, 78, 2, 2, 92, 80, 105, 2, 2, 91, 93, 2, 93, 2, 87]⟩, ⟨[33, 38, 39, 45, 46, 47, 58, 61, 63, 64, 95, 108, 194, 195, 198, 199, 203, 205, 206, 207, 210, 212, 213, 214, 215, 216, 217, 219, 220, 221, 222, 223, 224, 225, 226, 227, 228, 233, 234, 237, 239, 240], [(35, 37), (42, 43), (48, 57), (65, 90), (94, 96), (97, 122), (123, 126), (196, 202), (208, 218), (229, 236)], [2, 1160, 1161, 1147, 51, 2, 1149, 2, 2, 1164, 1151, 1291, 1166, 1167, 969, 936, 1168, 1169, 1170, 1171, 1172, 1173, 1174, 1175, 1176, 1177, 1178, 1179, 1180, 1181, 1016, 1182, 1183, 1184, 1185, 1186, 1187, 1188, 1189, 1190, 1191, 1192, 2, 2, 1163, 1165, 2, 1165, 2, 948, 948, 1032, 1159]⟩, [(2, 2), (19, 51), (76, 1147), (78, 1149), (80, 1151), (87, 1159), (88, 1160), (89, 1161), (91, 1163), (92, 1164), (93, 1165), (105, 1291)]⟩),
  (1358, [(2, 2)], ⟨⟨[33, 38, 39, 45, 46, 47, 58, 61, 63, 64, 95, 101], [(35, 37), (42, 43), (48, 57), (65, 90), (94, 96), (97, 122), (123, 126)], [2, 88, 89, 76, 19, 2, 78, 2, 2, 92, 80, 106, 2, 2, 91, 93, 2, 93, 2, 87]⟩, ⟨[33, 38, 39, 45, 46, 47, 58, 61, 63, 64, 95, 101, 194, 195, 198, 199, 203, 205, 206, 207, 210, 212, 213, 214, 215, 216, 217, 219, 220, 221, 222, 223, 224, 225, 226, 227, 228, 233, 234, 237, 239, 240], [(35, 37), (42, 43), (48, 57), (65, 90), (94, 96), (97, 122), (123, 126), (196, 202), (208, 218), (229, 236)], [2, 1160, 1161, 1147, 51, 2, 1149, 2, 2, 1164, 1151, 1292, 1166, 1167, 969, 936, 1168, 1169, 1170, 1171, 1172, 1173, 1174, 1175, 1176, 1177, 1178, 1179, 1180, 1181, 1016, 1182, 1183, 1184, 1185, 1186, 1187, 1188, 1189, 1190, 1191, 1192, 2, 2, 1163, 1165, 2, 1165, 2, 948, 948, 1032, 1159]⟩, [(2, 2), (19, 51), (76, 1147), (78, 1149), (80, 1151), (87, 1159), (88, 1160), (89, 1161), (91, 1163), (92, 1164), (93, 1165), (106, 1292)]⟩),
  (1359, [(2, 2)], ⟨⟨[33, 38, 39, 45, 46, 47, 58, 61, 63, 64, 95], [(35, 37), (42, 43), (48, 57), (65, 90), (94, 96), (97, 122), (123, 126)], [2, 88, 89, 76, 19, 2, 107, 2, 2, 92, 80, 2, 2, 91, 93, 2, 93, 2, 87]⟩, ⟨[33, 38, 39, 45, 46, 47, 58, 61, 63, 64, 95, 194, 195, 198, 199, 203, 205, 206, 207, 210, 212, 213, 214, 215, 216, 217, 219, 220, 221, 222, 223, 224, 225, 226, 227, 228, 233, 234, 237, 239, 240], [(35, 37), (42, 43), (48, 57), (65, 90), (94, 96), (97, 122), (123, 126), (196, 202), (208, 218), (229, 236)], [2, 1160, 1161, 1147, 51, 2, 1293, 2, 2, 1164, 1151, 1166, 1167, 969, 936, 1168, 1169, 1170, 1171, 1172, 1173, 1174, 1175, 1176, 1177, 1178, 1179, 1180, 1181, 1016, 1182, 1183, 1184, 1185, 1186, 1187, 1188, 1189, 1190, 1191, 1192, 2, 2, 1163, 1165, 2, 1165, 2, 948, 948, 1032, 1159]⟩, [(2, 2), (19, 51), (76, 1147), (80, 1151), (87, 1159), (88, 1160), (89, 1161), (91, 1163), (92, 1164), (93, 1165), (107, 1293)]⟩),
  (1360, [(2, 2)], ⟨⟨[45, 47, 58, 64, 95], [(44, 46), (48, 57), (65, 90), (97, 122)], [56, 108, 44, 44, 56, 44, 56, 56, 56, 81]⟩, ⟨[45, 47, 58, 64, 95], [(44, 46), (48, 57), (65, 90), (97, 122)], [1064, 1294, 230, 230, 1064, 230, 1064, 1064, 1064, 1152]⟩, [(44, 230), (56, 1064), (81, 1152), (108, 1294)]⟩),
  (1361, [(2, 2)], ⟨⟨[33, 38, 39, 45, 46, 47, 58, 61, 63, 64, 95, 112], [(35, 37), (42, 43), (48, 57), (65, 90), (94, 96), (97, 122), (123, 126)], [2, 88, 89, 76, 19, 2, 78, 2, 2, 92, 80, 106, 2, 2, 91, 93, 2, 93, 2, 87]⟩, ⟨[33, 38, 39, 45, 46, 47, 58, 61, 63, 64, 95, 112, 194, 195, 198, 199, 203, 205, 206, 207, 210, 212, 213, 214, 215, 216, 217, 219, 220, 221, 222, 223, 224, 225, 226, 227, 228, 233, 234, 237, 239, 240], [(35, 37), (42, 43), (48, 57), (65, 90), (94, 96), (97, 122), (123, 126), (196, 202), (208, 218), (229, 236)], [2, 1160, 1161, 1147, 51, 2, 1149, 2, 2, 1164, 1151, 1292, 1166, 1167, 969, 936, 1168, 1169, 1170, 1171, 1172, 1173, 1174, 1175, 1176, 1177, 1178, 1179, 1180, 1181, 1016, 1182, 1183, 1184, 1185, 1186, 1187, 1188, 1189, 1190, 1191, 1192, 2, 2, 1163, 1165, 2, 1165, 2, 948, 948, 1032, 1159]⟩, [(2, 2), (19, 51), (76, 1147), (78, 1149), (80, 1151), (87, 1159), (88, 1160), (89, 1161), (91, 1163), (92, 1164), (93, 1165), (106, 1292)]⟩),
  (1362, [(2, 2)], ⟨⟨[33, 38, 39, 45, 46, 47, 58, 61, 63, 64, 95, 116], [(35, 37), (42, 43), (48, 57), (65, 90), (94, 96), (97, 122), (123, 126)], [2, 88, 89, 76, 90, 2, 78, 2, 2, 92, 80, 109, 2, 2, 91, 93, 2, 93, 2, 87]⟩, ⟨[33, 38, 39, 45, 46, 47, 58, 61, 63, 64, 95, 116, 194, 195, 198, 199, 203, 205, 206, 207, 210, 212, 213, 214, 215, 216, 217, 219, 220, 221, 222, 223, 224, 225, 226, 227, 228, 233, 234, 237, 239, 240], [(35, 37), (42, 43), (48, 57), (65, 90), (94, 96), (97, 122), (123, 126), (196, 202), (208, 218), (229, 236)], [2, 1160, 1161, 1147, 1162, 2, 1149, 2, 2, 1164, 1151, 1295, 1166, 1167, 969, 936, 1168, 1169, 1170, 1171, 1172, 1173, 1174, 1175, 1176, 1177, 1178, 1179, 1180, 1181, 1016, 1182, 1183, 1184, 1185, 1186, 1187, 1188, 1189, 1190, 1191, 1192, 2, 2, 1163, 1165, 2, 1165, 2, 948, 948, 1032, 1159]⟩, [(2, 2), (76, 1147), (78, 1149), (80, 1151), (87, 1159), (88, 1160), (89, 1161), (90, 1162), (91, 1163), (92, 1164), (93, 1165), (109, 1295)]⟩),
  (1363, [(2, 2)], ⟨⟨[33, 38, 39, 45, 46, 47, 58, 61, 63, 64, 95, 116], [(35, 37), (42, 43), (48, 57), (65, 90), (94, 96), (97, 122), (123, 126)], [2, 88, 89, 76, 19, 2, 78, 2, 2, 92, 80, 110, 2, 2, 91, 93, 2, 93, 2, 87]⟩, ⟨[33, 38, 39, 45, 46, 47, 58, 61, 63, 64, 95, 116, 194, 195, 198, 199, 203, 205, 206, 207, 210, 212, 213, 214, 215, 216, 217, 219, 220, 221, 222, 223, 224, 225, 226, 227, 228, 233, 234, 237, 239, 240], [(35, 37), (42, 43), (48, 57), (65, 90), (94, 96), (97, 122), (123, 126), (196, 202), (208, 218), (229, 236)], [2, 1160, 1161, 1147, 51, 2, 1149, 2, 2, 1164, 1151, 1296, 1166, 1167, 969, 936, 1168, 1169, 1170, 1171, 1172, 1173, 1174, 1175, 1176, 1177, 1178, 1179, 1180, 1181, 1016, 1182, 1183, 1184, 1185, 1186, 1187, 1188, 1189, 1190, 1191, 1192, 2, 2, 1163, 1165, 2, 1165, 2, 948, 948, 1032, 1159]⟩, [(2, 2), (19, 51), (76, 1147), (78, 1149), (80, 1151), (87, 1159), (88, 1160), (89, 1161), (91, 1163), (92, 1164), (93, 1165), (110, 1296)]⟩),
  (1364, [(2, 2)], ⟨⟨[33, 38, 39, 45, 46, 47, 58, 61, 63, 64, 95, 112], [(35, 37), (42, 43), (48, 57), (65, 90), (94, 96), (97, 122), (123, 126)], [2, 88, 89, 76, 19, 2, 78, 2, 2, 92, 80, 111, 2, 2, 91, 93, 2, 93, 2, 87]⟩, ⟨[33, 38, 39, 45, 46, 47, 58, 61, 63, 64, 95, 112, 194, 195, 198, 199, 203, 205, 206, 207, 210, 212, 213, 214, 215, 216, 217, 219, 220, 221, 222, 223, 224, 225, 226, 227, 228, 233, 234, 237, 239, 240], [(35, 37), (42, 43), (48, 57), (65, 90), (94, 96), (97, 122), (123, 126), (196, 202), (208, 218), (229, 236)], [2, 1160, 1161, 1147, 51, 2, 1149, 2, 2, 1164, 1151, 1297, 1166, 1167, 969, 936, 1168, 1169, 1170, 1171, 1172, 1173, 1174, 1175, 1176, 1177, 1178, 1179, 1180, 1181, 1016, 1182, 1183, 1184, 1185, 1186, 1187, 1188, 1189, 1190, 1191, 1192, 2, 2, 1163, 1165, 2, 1165, 2, 948, 948, 1032, 1159]⟩, [(2, 2), (19, 51), (76, 1147), (78, 1149), (80, 1151), (87, 1159), (88, 1160), (89, 1161), (91, 1163), (92, 1164), (93, 1165), (111, 1297)]⟩),
  (1365, [(2, 2)], ⟨⟨[33, 38, 39, 45, 46, 47, 58, 61, 63, 64, 95, 115], [(35, 37), (42, 43), (48, 57), (65, 90), (94, 96), (97, 122), (123, 126)], [2, 88, 89, 76, 19, 2, 107, 2, 2, 92, 80, 106, 2, 2, 91, 93, 2, 93, 2, 87]⟩, ⟨[33, 38, 39, 45, 46, 47, 58, 61, 63, 64, 95, 115, 194, 195, 198, 199, 203, 205, 206, 207, 210, 212, 213, 214, 215, 216, 217, 219, 220, 221, 222, 223, 224, 225, 226, 227, 228, 233, 234, 237, 239, 240], [(35, 37), (42, 43), (48, 57), (65, 90), (94, 96), (97, 122), (123, 126), (196, 202), (208, 218), (229, 236)], [2, 1160, 1161, 1147, 51, 2, 1293, 2, 2, 1164, 1151, 1292, 1166, 1167, 969, 936, 1168, 1169, 1170, 1171, 1172, 1173, 1174, 1175, 1176, 1177, 1178, 1179, 1180, 1181, 1016, 1182, 1183, 1184, 1185, 1186, 1187, 1188, 1189, 1190, 1191, 1192, 2, 2, 1163, 1165, 2, 1165, 2, 948, 948, 1032, 1159]⟩, [(2, 2), (19, 51), (76, 1147), (80, 1151), (87, 1159), (88, 1160), (89, 1161), (91, 1163), (92, 1164), (93, 1165), (106, 1292), (107, 1293)]⟩)]

theorem sim_frames : simFrame Ascii.machine 35 = true ∧ simFrame Utf8.machine 1305 = true := by decide +kernel

/-- The rows of the states between matches. -/
def simCells : Both := ⟨⟨[0, 34, 42, 43, 45, 47, 61, 63, 102, 104], [(33, 39), (48, 57), (65, 90), (94, 96), (97, 122), (123, 126)], [59, 62, 61, 63, 63, 61, 61, 61, 66, 67, 61, 64, 65, 61, 65, 61, 60]⟩, ⟨[0, 34, 42, 43, 45, 47, 61, 63, 102, 104, 194, 195, 198, 199, 203, 205, 206, 207, 210, 212, 213, 214, 215, 216, 217, 219, 220, 221, 222, 223, 224, 225, 226, 227, 228, 233, 234, 237, 239, 240], [(33, 39), (48, 57), (65, 90), (94, 96), (97, 122), (123, 126), (196, 202), (208, 218), (229, 236)], [1098, 1101, 1100, 1102, 1102, 1100, 1100, 1100, 1105, 1106, 1107, 1108, 1110, 1111, 1112, 1113, 1114, 1115, 1116, 1117, 1118, 1119, 1120, 1121, 1122, 1123, 1124, 1125, 1126, 1127, 1128, 1129, 1130, 1131, 1132, 1134, 1135, 1136, 1137, 1138, 1100, 1103, 1104, 1100, 1104, 1100, 1109, 1109, 1133, 1099]⟩, [(59, 1098), (60, 1099), (61, 1100), (62, 1101), (63, 1102), (64, 1103), (65, 1104), (66, 1105), (67, 1106)]⟩

theorem sim_entry : simRows Ascii.machine Utf8.machine simCells 35 1305 (fun t t' => simTrans Ascii.machine Utf8.machine simAscii 35 1305 t t' none none) = true := by
  decide +kernel

theorem sim_states0 : (List.range' 0 11).all (simState Ascii.machine Utf8.machine simAscii 35 1305) = true := by
  decide +kernel

theorem sim_states1 : (List.range' 11 11).all (simState Ascii.machine Utf8.machine simAscii 35 1305) = true := by
  decide +kernel

theorem sim_states2 : (List.range' 22 11).all (simState Ascii.machine Utf8.machine simAscii 35 1305) = true := by
  decide +kernel

theorem sim_states3 : (List.range' 33 11).all (simState Ascii.machine Utf8.machine simAscii 35 1305) = true := by
  decide +kernel

theorem sim_states4 : (List.range' 44 11).all (simState Ascii.machine Utf8.machine simAscii 35 1305) = true := by
  decide +kernel

theorem sim_states5 : (List.range' 55 11).all (simState Ascii.machine Utf8.machine simAscii 35 1305) = true := by
  decide +kernel

theorem sim_states6 : (List.range' 66 11).all (simState Ascii.machine Utf8.machine simAscii 35 1305) = true := by
  decide +kernel

theorem sim_states7 : (List.range' 77 10).all (simState Ascii.machine Utf8.machine simAscii 35 1305) = true := by
  decide +kernel

theorem simCert : SimCert Ascii.machine Utf8.machine simAscii 35 1305 := by
  refine simCert_of simCells sim_frames.1 sim_frames.2 sim_entry fun s h => ?_
  have h' : s < 87 := h

  by_cases h0 : s < 11
  · exact List.all_eq_true.1 sim_states0 s (List.mem_range'_1.2 (by omega))
  by_cases h1 : s < 22
  · exact List.all_eq_true.1 sim_states1 s (List.mem_range'_1.2 (by omega))
  by_cases h2 : s < 33
  · exact List.all_eq_true.1 sim_states2 s (List.mem_range'_1.2 (by omega))
  by_cases h3 : s < 44
  · exact List.all_eq_true.1 sim_states3 s (List.mem_range'_1.2 (by omega))
  by_cases h4 : s < 55
  · exact List.all_eq_true.1 sim_states4 s (List.mem_range'_1.2 (by omega))
  by_cases h5 : s < 66
  · exact List.all_eq_true.1 sim_states5 s (List.mem_range'_1.2 (by omega))
  by_cases h6 : s < 77
  · exact List.all_eq_true.1 sim_states6 s (List.mem_range'_1.2 (by omega))
  exact List.all_eq_true.1 sim_states7 s (List.mem_range'_1.2 (by omega))

end Ferret.Scan
