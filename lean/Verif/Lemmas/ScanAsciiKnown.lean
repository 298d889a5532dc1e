import Verif.Lemmas.ScanRun
import Verif.Model.ScanAscii

/-! The ASCII scanner: what is known in each state. -/

namespace Ferret.Scan.Ascii
open Ferret.Scan
set_option maxRecDepth 100000

/-- What is known in each state, for all texts. -/
def known : Known := [
  [],
  [],
  [(2, ⟨2, some 1, 0, some 1, none, false, true, true⟩), (3, ⟨3, some 2, 0, some 1, none, false, true, true⟩), (4, ⟨4, some 3, 0, some 1, none, false, true, true⟩), (5, ⟨4, some 3, 0, some 1, none, false, true, true⟩), (6, ⟨2, some 1, 0, some 1, none, false, true, true⟩), (7, ⟨3, some 2, 0, some 1, none, false, true, true⟩), (8, ⟨4, some 4, 1, some 1, none, false, false, true⟩), (9, ⟨4, some 3, 0, some 1, none, false, true, true⟩), (10, ⟨3, some 2, 0, some 2, none, false, true, true⟩), (11, ⟨4, some 3, 0, none, none, false, true, true⟩), (13, ⟨2, some 1, 0, some 2, none, true, true, true⟩)],
  [(2, ⟨3, some 1, 0, some 1, none, false, true, true⟩), (3, ⟨3, some 2, 0, some 1, none, false, true, true⟩), (4, ⟨4, some 3, 0, some 1, none, false, true, true⟩), (5, ⟨4, some 3, 0, some 1, none, false, true, true⟩), (6, ⟨3, some 1, 0, some 1, none, false, true, true⟩), (7, ⟨3, some 2, 0, some 1, none, false, true, true⟩), (8, ⟨4, some 4, 1, some 1, none, false, false, true⟩), (9, ⟨4, some 3, 0, some 1, none, false, true, true⟩), (10, ⟨4, some 2, 0, some 2, none, false, true, true⟩), (11, ⟨4, some 3, 0, none, none, false, true, true⟩), (13, ⟨2, some 1, 0, some 2, none, true, true, true⟩)],
  [(2, ⟨3, some 1, 0, some 1, none, false, true, true⟩), (3, ⟨3, some 2, 0, some 1, none, false, true, true⟩), (4, ⟨4, some 3, 0, some 1, none, false, true, true⟩), (5, ⟨4, some 3, 0, some 1, none, false, true, true⟩), (6, ⟨2, some 1, 0, some 1, none, false, true, true⟩), (7, ⟨3, some 2, 0, some 1, none, false, true, true⟩), (8, ⟨4, some 4, 1, some 1, none, false, false, true⟩), (9, ⟨4, some 3, 0, some 1, none, false, true, true⟩), (10, ⟨3, some 2, 0, some 2, none, false, true, true⟩), (11, ⟨4, some 3, 0, none, none, false, true, true⟩), (13, ⟨2, some 1, 0, some 2, none, true, true, true⟩)],
  [(2, ⟨4, some 4, 0, some 1, none, false, true, true⟩), (3, ⟨4, some 4, 0, some 1, none, false, true, true⟩), (4, ⟨4, some 4, 0, some 1, none, false, true, true⟩), (5, ⟨4, some 4, 0, some 1, none, false, true, true⟩), (6, ⟨4, some 3, 0, some 1, none, false, true, true⟩), (7, ⟨4, some 3, 0, some 1, none, false, true, true⟩), (8, ⟨4, some 4, 1, some 1, none, false, false, true⟩), (9, ⟨4, some 4, 0, some 1, none, false, true, true⟩), (10, ⟨4, some 4, 0, some 2, none, false, true, true⟩), (11, ⟨4, some 4, 0, none, none, false, true, true⟩), (13, ⟨4, some 3, 0, some 2, none, false, true, true⟩)],
  [(2, ⟨4, some 1, 0, some 1, none, false, true, true⟩), (3, ⟨4, some 2, 0, some 1, none, false, true, true⟩), (4, ⟨4, some 3, 0, some 1, none, false, true, true⟩), (5, ⟨4, some 3, 0, some 1, none, false, true, true⟩), (6, ⟨3, some 1, 0, some 1, none, false, true, true⟩), (7, ⟨3, some 2, 0, some 1, none, false, true, true⟩), (8, ⟨4, some 4, 1, some 1, none, false, false, true⟩), (9, ⟨4, some 3, 0, some 1, none, false, true, true⟩), (10, ⟨4, some 2, 0, some 2, none, false, true, true⟩), (11, ⟨4, some 3, 0, none, none, false, true, true⟩), (13, ⟨3, some 1, 0, some 2, none, true, true, true⟩)],
  [(2, ⟨4, some 1, 0, some 1, none, false, true, true⟩), (3, ⟨4, some 2, 0, some 1, none, false, true, true⟩), (4, ⟨4, some 3, 0, some 1, none, false, true, true⟩), (5, ⟨4, some 3, 0, some 1, none, false, true, true⟩), (6, ⟨4, some 1, 0, some 1, none, false, true, true⟩), (7, ⟨4, some 2, 0, some 1, none, false, true, true⟩), (8, ⟨4, some 4, 1, some 1, none, false, false, true⟩), (9, ⟨4, some 3, 0, some 1, none, false, true, true⟩), (10, ⟨4, some 2, 0, some 2, none, false, true, true⟩), (11, ⟨4, some 3, 0, none, none, false, true, true⟩), (13, ⟨4, some 1, 0, some 2, none, true, true, true⟩)],
  [(13, ⟨2, some 1, 0, some 2, none, true, true, true⟩)],
  [(13, ⟨2, some 1, 0, some 2, none, true, true, true⟩)],
  [(13, ⟨2, some 1, 0, some 2, none, true, true, true⟩)],
  [(10, ⟨3, some 2, 0, some 2, none, false, true, true⟩)],
  [(2, ⟨2, some 1, 0, some 1, none, false, true, true⟩), (6, ⟨2, some 1, 0, some 1, none, false, true, true⟩)],
  [(2, ⟨3, some 1, 0, some 1, none, false, true, true⟩), (6, ⟨3, some 1, 0, some 1, none, false, true, true⟩), (8, ⟨4, some 4, 0, some 1, none, false, true, true⟩), (9, ⟨4, some 3, 0, some 1, none, false, true, true⟩), (11, ⟨4, some 3, 0, some 1, none, false, true, true⟩)],
  [(2, ⟨3, some 1, 0, some 1, none, false, true, true⟩), (6, ⟨4, some 1, 0, some 1, none, false, true, true⟩), (8, ⟨4, some 4, 0, some 1, none, false, true, true⟩), (9, ⟨4, some 3, 0, some 1, none, false, true, true⟩), (11, ⟨4, some 3, 0, some 1, none, false, true, true⟩)],
  [(2, ⟨3, some 1, 0, some 1, none, false, true, true⟩), (6, ⟨3, some 1, 0, some 1, none, false, true, true⟩), (8, ⟨4, some 4, 0, some 1, none, false, true, true⟩), (9, ⟨4, some 3, 0, some 1, none, false, true, true⟩), (11, ⟨4, some 3, 0, some 1, none, false, true, true⟩)],
  [(2, ⟨4, some 1, 0, some 1, none, false, true, true⟩), (6, ⟨3, some 1, 0, some 1, none, false, true, true⟩), (8, ⟨4, some 4, 0, some 1, none, false, true, true⟩), (9, ⟨4, some 3, 0, some 1, none, false, true, true⟩), (11, ⟨4, some 3, 0, some 1, none, false, true, true⟩)],
  [(8, ⟨4, some 4, 0, some 1, none, false, true, true⟩)],
  [(2, ⟨4, some 1, 0, some 1, none, false, true, true⟩), (6, ⟨3, some 1, 0, some 1, none, false, true, true⟩), (8, ⟨4, some 4, 0, some 1, none, false, true, true⟩), (9, ⟨4, some 3, 0, some 1, none, false, true, true⟩), (11, ⟨4, some 3, 0, some 1, none, false, true, true⟩)],
  [(2, ⟨4, some 1, 0, some 1, none, false, true, true⟩), (6, ⟨3, some 1, 0, some 1, none, false, true, true⟩), (8, ⟨4, some 4, 0, some 1, none, false, true, true⟩), (9, ⟨4, some 3, 0, some 1, none, false, true, true⟩), (11, ⟨4, some 3, 0, some 1, none, false, true, true⟩)],
  [(2, ⟨4, some 1, 0, some 1, none, false, true, true⟩), (6, ⟨3, some 1, 0, some 1, none, false, true, true⟩), (8, ⟨4, some 4, 0, some 1, none, false, true, true⟩), (9, ⟨4, some 3, 0, some 1, none, false, true, true⟩), (11, ⟨4, some 3, 0, some 1, none, false, true, true⟩)],
  [(2, ⟨4, some 1, 0, some 1, none, false, true, true⟩), (6, ⟨3, some 1, 0, some 1, none, false, true, true⟩), (8, ⟨4, some 4, 0, some 1, none, false, true, true⟩), (9, ⟨4, some 3, 0, some 1, none, false, true, true⟩), (11, ⟨4, some 3, 0, some 1, none, false, true, true⟩)],
  [(2, ⟨4, some 1, 0, some 1, none, false, true, true⟩), (6, ⟨3, some 1, 0, some 1, none, false, true, true⟩), (8, ⟨4, some 4, 0, some 1, none, false, true, true⟩), (9, ⟨4, some 3, 0, some 1, none, false, true, true⟩), (11, ⟨4, some 3, 0, some 1, none, false, true, true⟩)],
  [(8, ⟨4, some 4, 0, some 1, none, false, true, true⟩)],
  [(2, ⟨4, some 1, 0, some 1, none, false, true, true⟩), (6, ⟨3, some 1, 0, some 1, none, false, true, true⟩), (8, ⟨4, some 4, 0, some 1, none, false, true, true⟩), (9, ⟨4, some 3, 0, some 1, none, false, true, true⟩), (11, ⟨4, some 3, 0, some 1, none, false, true, true⟩)],
  [(2, ⟨4, some 1, 0, some 1, none, false, true, true⟩), (6, ⟨3, some 1, 0, some 1, none, false, true, true⟩), (8, ⟨4, some 4, 0, some 1, none, false, true, true⟩), (9, ⟨4, some 3, 0, some 1, none, false, true, true⟩), (11, ⟨4, some 3, 0, some 1, none, false, true, true⟩)],
  [(2, ⟨4, some 1, 0, some 1, none, false, true, true⟩), (6, ⟨3, some 1, 0, some 1, none, false, true, true⟩), (8, ⟨4, some 4, 0, some 1, none, false, true, true⟩), (9, ⟨4, some 3, 0, some 1, none, false, true, true⟩), (11, ⟨4, some 3, 0, some 1, none, false, true, true⟩)],
  [(2, ⟨2, some 1, 0, some 1, none, false, true, true⟩), (6, ⟨2, some 1, 0, some 1, none, false, true, true⟩)],
  [(6, ⟨2, some 1, 0, some 1, none, false, true, true⟩)],
  [(2, ⟨2, some 1, 0, some 1, none, false, true, true⟩), (6, ⟨2, some 1, 0, some 1, none, false, true, true⟩)],
  [(2, ⟨3, some 1, 0, some 1, none, false, true, true⟩), (6, ⟨3, some 1, 0, some 1, none, false, true, true⟩)],
  [(2, ⟨2, some 1, 0, some 1, none, true, true, true⟩), (9, ⟨4, some 3, 0, some 1, none, false, true, true⟩)],
  [(2, ⟨4, some 3, 0, some 1, none, false, true, true⟩)],
  [(2, ⟨4, some 3, 0, some 1, none, false, true, true⟩)],
  [],
  [],
  [(4, ⟨4, some 4, 0, some 1, none, false, true, true⟩), (8, ⟨4, some 4, 1, some 1, none, false, false, true⟩), (13, ⟨1, some 1, 0, some 2, some 1, true, true, true⟩)],
  [(2, ⟨4, some 4, 0, some 1, none, false, true, true⟩), (3, ⟨4, some 4, 0, some 1, none, false, true, true⟩), (4, ⟨4, some 4, 0, some 1, none, false, true, true⟩), (5, ⟨4, some 4, 0, some 1, none, false, true, true⟩), (6, ⟨3, some 3, 0, some 1, none, false, true, true⟩), (7, ⟨3, some 3, 0, some 1, none, false, true, true⟩), (8, ⟨4, some 4, 1, some 1, none, false, false, true⟩), (9, ⟨4, some 4, 0, some 1, none, false, true, true⟩), (10, ⟨4, some 4, 0, some 2, none, false, true, true⟩), (11, ⟨4, some 4, 0, none, none, false, true, true⟩), (13, ⟨3, some 3, 0, some 2, none, false, true, true⟩)],
  [(13, ⟨1, some 1, 0, some 2, some 1, true, true, true⟩)],
  [(13, ⟨1, some 1, 0, some 2, some 1, true, true, true⟩)],
  [(10, ⟨2, some 2, 0, some 2, none, false, true, true⟩)],
  [(11, ⟨4, some 4, 0, some 2, none, false, true, true⟩)],
  [(6, ⟨1, some 1, 0, some 1, none, false, true, true⟩)],
  [(8, ⟨4, some 4, 0, some 1, none, false, true, true⟩)],
  [(8, ⟨4, some 4, 0, some 1, none, false, true, true⟩)],
  [(8, ⟨4, some 4, 0, some 1, none, false, true, true⟩)],
  [(8, ⟨4, some 4, 0, some 1, none, false, true, true⟩)],
  [(8, ⟨4, some 4, 0, some 1, none, false, true, true⟩)],
  [(8, ⟨4, some 4, 0, some 1, none, false, true, true⟩)],
  [(8, ⟨4, some 4, 0, some 1, none, false, true, true⟩)],
  [(8, ⟨4, some 4, 0, some 1, none, false, true, true⟩)],
  [(8, ⟨4, some 4, 0, some 1, none, false, true, true⟩)],
  [(8, ⟨4, some 4, 0, some 1, none, false, true, true⟩)],
  [(6, ⟨3, some 3, 0, some 1, none, false, true, true⟩)],
  [(6, ⟨3, some 3, 0, some 1, none, false, true, true⟩)],
  [(11, ⟨3, some 3, 0, some 1, none, false, true, true⟩)],
  [(2, ⟨1, none, 1, some 1, none, false, false, true⟩), (6, ⟨4, some 1, 1, some 1, none, false, false, true⟩)],
  [(6, ⟨2, some 2, 0, some 1, none, false, true, true⟩)],
  [(2, ⟨1, some 1, 0, some 1, some 1, true, true, true⟩)],
  [(7, ⟨2, some 2, 0, some 1, none, false, true, true⟩)],
  [(7, ⟨3, some 3, 0, some 1, none, false, true, true⟩)],
  [(3, ⟨2, some 2, 0, some 1, none, false, true, true⟩)],
  [(4, ⟨3, some 3, 0, some 1, none, false, true, true⟩), (5, ⟨3, some 3, 0, some 1, none, false, true, true⟩)],
  [(9, ⟨3, some 3, 0, some 1, none, false, true, true⟩)],
  [(9, ⟨3, some 3, 0, some 1, none, false, true, true⟩)],
  [(9, ⟨3, some 3, 0, some 1, none, false, true, true⟩)],
  [(9, ⟨3, some 3, 0, some 1, none, false, true, true⟩)],
  [(9, ⟨3, some 3, 0, some 1, none, false, true, true⟩)],
  [(9, ⟨3, some 3, 0, some 1, none, false, true, true⟩)],
  [(9, ⟨3, some 3, 0, some 1, none, false, true, true⟩)],
  [(9, ⟨3, some 3, 0, some 1, none, false, true, true⟩)],
  [(9, ⟨3, some 3, 0, some 1, none, false, true, true⟩)],
  [(2, ⟨2, some 2, 0, some 1, none, false, true, true⟩)],
  [(3, ⟨3, some 3, 0, some 1, none, false, true, true⟩)],
  [(7, ⟨2, some 2, 0, some 1, none, false, true, true⟩)],
  [(7, ⟨3, some 3, 0, some 1, none, false, true, true⟩)],
  [(2, ⟨2, some 2, 0, some 1, none, false, true, true⟩)],
  [(2, ⟨1, some 1, 0, some 1, some 1, true, true, true⟩)],
  [(2, ⟨2, some 2, 0, some 1, none, false, true, true⟩)],
  [(2, ⟨3, some 3, 0, some 1, none, false, true, true⟩)],
  [(2, ⟨3, some 3, 0, some 1, none, false, true, true⟩)],
  [(2, ⟨4, some 3, 1, some 1, none, false, false, true⟩)],
  [(2, ⟨2, some 2, 0, some 1, none, false, true, true⟩)],
  [(2, ⟨1, some 1, 0, some 1, some 1, true, true, true⟩)],
  [(2, ⟨2, some 2, 0, some 1, none, false, true, true⟩)],
  [(2, ⟨3, some 3, 0, some 1, none, false, true, true⟩)],
  [(2, ⟨4, some 4, 0, some 1, none, false, true, true⟩)]]

/-- What is known in each state, for texts without `:`. -/
def knownPlain : Known := [
  [],
  [],
  [(2, ⟨2, some 1, 0, some 1, none, false, true, true⟩), (3, ⟨3, some 2, 0, some 1, none, false, true, true⟩), (4, ⟨4, some 3, 0, some 1, none, false, true, true⟩), (5, ⟨4, some 3, 0, some 1, none, false, true, true⟩), (6, ⟨2, some 1, 0, some 1, none, false, true, true⟩), (7, ⟨3, some 2, 0, some 1, none, false, true, true⟩), (8, ⟨4, some 4, 1, some 1, none, false, false, true⟩), (9, ⟨4, some 3, 0, some 1, none, false, true, true⟩), (10, ⟨3, some 2, 0, some 2, none, false, true, true⟩), (11, ⟨4, some 3, 0, none, none, false, true, true⟩), (13, ⟨2, some 1, 0, some 2, none, true, true, true⟩)],
  [(2, ⟨3, some 1, 0, some 1, none, false, true, true⟩), (3, ⟨3, some 2, 0, some 1, none, false, true, true⟩), (4, ⟨4, some 3, 0, some 1, none, false, true, true⟩), (5, ⟨4, some 3, 0, some 1, none, false, true, true⟩), (6, ⟨3, some 1, 0, some 1, none, false, true, true⟩), (7, ⟨3, some 2, 0, some 1, none, false, true, true⟩), (8, ⟨4, some 4, 1, some 1, none, false, false, true⟩), (9, ⟨4, some 3, 0, some 1, none, false, true, true⟩), (10, ⟨4, some 2, 0, some 2, none, false, true, true⟩), (11, ⟨4, some 3, 0, none, none, false, true, true⟩), (13, ⟨2, some 1, 0, some 2, none, true, true, true⟩)],
  [(2, ⟨3, some 1, 0, some 1, none, false, true, true⟩), (3, ⟨3, some 2, 0, some 1, none, false, true, true⟩), (4, ⟨4, some 3, 0, some 1, none, false, true, true⟩), (5, ⟨4, some 3, 0, some 1, none, false, true, true⟩), (6, ⟨2, some 1, 0, some 1, none, false, true, true⟩), (7, ⟨3, some 2, 0, some 1, none, false, true, true⟩), (8, ⟨4, some 4, 1, some 1, none, false, false, true⟩), (9, ⟨4, some 3, 0, some 1, none, false, true, true⟩), (10, ⟨3, some 2, 0, some 2, none, false, true, true⟩), (11, ⟨4, some 3, 0, none, none, false, true, true⟩), (13, ⟨2, some 1, 0, some 2, none, true, true, true⟩)],
  [(2, ⟨4, some 4, 0, some 1, none, false, true, true⟩), (3, ⟨4, some 4, 0, some 1, none, false, true, true⟩), (4, ⟨4, some 4, 0, some 1, none, false, true, true⟩), (5, ⟨4, some 4, 0, some 1, none, false, true, true⟩), (6, ⟨4, some 3, 0, some 1, none, false, true, true⟩), (7, ⟨4, some 3, 0, some 1, none, false, true, true⟩), (8, ⟨4, some 4, 1, some 1, none, false, false, true⟩), (9, ⟨4, some 4, 0, some 1, none, false, true, true⟩), (10, ⟨4, some 4, 0, some 2, none, false, true, true⟩), (11, ⟨4, some 4, 0, none, none, false, true, true⟩), (13, ⟨4, some 3, 0, some 2, none, false, true, true⟩)],
  [(2, ⟨4, some 1, 0, some 1, none, false, true, true⟩), (3, ⟨4, some 2, 0, some 1, none, false, true, true⟩), (4, ⟨4, some 3, 0, some 1, none, false, true, true⟩), (5, ⟨4, some 3, 0, some 1, none, false, true, true⟩), (6, ⟨3, some 1, 0, some 1, none, false, true, true⟩), (7, ⟨3, some 2, 0, some 1, none, false, true, true⟩), (8, ⟨4, some 4, 1, some 1, none, false, false, true⟩), (9, ⟨4, some 3, 0, some 1, none, false, true, true⟩), (10, ⟨4, some 2, 0, some 2, none, false, true, true⟩), (11, ⟨4, some 3, 0, none, none, false, true, true⟩), (13, ⟨3, some 1, 0, some 2, none, true, true, true⟩)],
  [(2, ⟨4, some 1, 0, some 1, none, false, true, true⟩), (3, ⟨4, some 2, 0, some 1, none, false, true, true⟩), (4, ⟨4, some 3, 0, some 1, none, false, true, true⟩), (5, ⟨4, some 3, 0, some 1, none, false, true, true⟩), (6, ⟨4, some 1, 0, some 1, none, false, true, true⟩), (7, ⟨4, some 2, 0, some 1, none, false, true, true⟩), (8, ⟨4, some 4, 1, some 1, none, false, false, true⟩), (9, ⟨4, some 3, 0, some 1, none, false, true, true⟩), (10, ⟨4, some 2, 0, some 2, none, false, true, true⟩), (11, ⟨4, some 3, 0, none, none, false, true, true⟩), (13, ⟨4, some 1, 0, some 2, none, true, true, true⟩)],
  [(13, ⟨2, some 1, 0, some 2, none, true, true, true⟩)],
  [(13, ⟨2, some 1, 0, some 2, none, true, true, true⟩)],
  [(13, ⟨2, some 1, 0, some 2, none, true, true, true⟩)],
  [(10, ⟨3, some 2, 0, some 2, none, false, true, true⟩)],
  [(2, ⟨2, some 1, 0, some 1, none, false, true, true⟩), (6, ⟨2, some 1, 0, some 1, none, false, true, true⟩)],
  [(2, ⟨3, some 1, 0, some 1, none, false, true, true⟩), (6, ⟨3, some 1, 0, some 1, none, false, true, true⟩), (8, ⟨4, some 4, 0, some 1, none, false, true, true⟩), (9, ⟨4, some 3, 0, some 1, none, false, true, true⟩), (11, ⟨4, some 3, 0, some 1, none, false, true, true⟩)],
  [(2, ⟨3, some 1, 0, some 1, none, false, true, true⟩), (6, ⟨4, some 1, 0, some 1, none, false, true, true⟩), (8, ⟨4, some 4, 0, some 1, none, false, true, true⟩), (9, ⟨4, some 3, 0, some 1, none, false, true, true⟩), (11, ⟨4, some 3, 0, some 1, none, false, true, true⟩)],
  [(2, ⟨3, some 1, 0, some 1, none, false, true, true⟩), (6, ⟨3, some 1, 0, some 1, none, false, true, true⟩), (8, ⟨4, some 4, 0, some 1, none, false, true, true⟩), (9, ⟨4, some 3, 0, some 1, none, false, true, true⟩), (11, ⟨4, some 3, 0, some 1, none, false, true, true⟩)],
  [(2, ⟨4, some 1, 0, some 1, none, false, true, true⟩), (6, ⟨3, some 1, 0, some 1, none, false, true, true⟩), (8, ⟨4, some 4, 0, some 1, none, false, true, true⟩), (9, ⟨4, some 3, 0, some 1, none, false, true, true⟩), (11, ⟨4, some 3, 0, some 1, none, false, true, true⟩)],
  [],
  [(2, ⟨4, some 1, 0, some 1, none, false, true, true⟩), (6, ⟨3, some 1, 0, some 1, none, false, true, true⟩), (8, ⟨4, some 4, 0, some 1, none, false, true, true⟩), (9, ⟨4, some 3, 0, some 1, none, false, true, true⟩), (11, ⟨4, some 3, 0, some 1, none, false, true, true⟩)],
  [(2, ⟨4, some 1, 0, some 1, none, false, true, true⟩), (6, ⟨3, some 1, 0, some 1, none, false, true, true⟩), (8, ⟨4, some 4, 0, some 1, none, false, true, true⟩), (9, ⟨4, some 3, 0, some 1, none, false, true, true⟩), (11, ⟨4, some 3, 0, some 1, none, false, true, true⟩)],
  [(2, ⟨4, some 1, 0, some 1, none, false, true, true⟩), (6, ⟨3, some 1, 0, some 1, none, false, true, true⟩), (8, ⟨4, some 4, 0, some 1, none, false, true, true⟩), (9, ⟨4, some 3, 0, some 1, none, false, true, true⟩), (11, ⟨4, some 3, 0, some 1, none, false, true, true⟩)],
  [(2, ⟨4, some 1, 0, some 1, none, false, true, true⟩), (6, ⟨3, some 1, 0, some 1, none, false, true, true⟩), (8, ⟨4, some 4, 0, some 1, none, false, true, true⟩), (9, ⟨4, some 3, 0, some 1, none, false, true, true⟩), (11, ⟨4, some 3, 0, some 1, none, false, true, true⟩)],
  [(2, ⟨4, some 1, 0, some 1, none, false, true, true⟩), (6, ⟨3, some 1, 0, some 1, none, false, true, true⟩), (8, ⟨4, some 4, 0, some 1, none, false, true, true⟩), (9, ⟨4, some 3, 0, some 1, none, false, true, true⟩), (11, ⟨4, some 3, 0, some 1, none, false, true, true⟩)],
  [(8, ⟨4, some 4, 0, some 1, none, false, true, true⟩)],
  [(2, ⟨4, some 1, 0, some 1, none, false, true, true⟩), (6, ⟨3, some 1, 0, some 1, none, false, true, true⟩), (8, ⟨4, some 4, 0, some 1, none, false, true, true⟩), (9, ⟨4, some 3, 0, some 1, none, false, true, true⟩), (11, ⟨4, some 3, 0, some 1, none, false, true, true⟩)],
  [(2, ⟨4, some 1, 0, some 1, none, false, true, true⟩), (6, ⟨3, some 1, 0, some 1, none, false, true, true⟩), (8, ⟨4, some 4, 0, some 1, none, false, true, true⟩), (9, ⟨4, some 3, 0, some 1, none, false, true, true⟩), (11, ⟨4, some 3, 0, some 1, none, false, true, true⟩)],
  [(2, ⟨4, some 1, 0, some 1, none, false, true, true⟩), (6, ⟨3, some 1, 0, some 1, none, false, true, true⟩), (8, ⟨4, some 4, 0, some 1, none, false, true, true⟩), (9, ⟨4, some 3, 0, some 1, none, false, true, true⟩), (11, ⟨4, some 3, 0, some 1, none, false, true, true⟩)],
  [(2, ⟨2, some 1, 0, some 1, none, false, true, true⟩), (6, ⟨2, some 1, 0, some 1, none, false, true, true⟩)],
  [(6, ⟨2, some 1, 0, some 1, none, false, true, true⟩)],
  [],
  [],
  [(2, ⟨2, some 1, 0, some 1, none, true, true, true⟩), (9, ⟨4, some 3, 0, some 1, none, false, true, true⟩)],
  [],
  [],
  [],
  [],
  [(4, ⟨4, some 4, 0, some 1, none, false, true, true⟩), (8, ⟨4, some 4, 1, some 1, none, false, false, true⟩), (13, ⟨1, some 1, 0, some 2, some 1, true, true, true⟩)],
  [(2, ⟨4, some 4, 0, some 1, none, false, true, true⟩), (3, ⟨4, some 4, 0, some 1, none, false, true, true⟩), (4, ⟨4, some 4, 0, some 1, none, false, true, true⟩), (5, ⟨4, some 4, 0, some 1, none, false, true, true⟩), (6, ⟨3, some 3, 0, some 1, none, false, true, true⟩), (7, ⟨3, some 3, 0, some 1, none, false, true, true⟩), (8, ⟨4, some 4, 1, some 1, none, false, false, true⟩), (9, ⟨4, some 4, 0, some 1, none, false, true, true⟩), (10, ⟨4, some 4, 0, some 2, none, false, true, true⟩), (11, ⟨4, some 4, 0, none, none, false, true, true⟩), (13, ⟨3, some 3, 0, some 2, none, false, true, true⟩)],
  [(13, ⟨1, some 1, 0, some 2, some 1, true, true, true⟩)],
  [(13, ⟨1, some 1, 0, some 2, some 1, true, true, true⟩)],
  [(10, ⟨2, some 2, 0, some 2, none, false, true, true⟩)],
  [(11, ⟨4, some 4, 0, some 2, none, false, true, true⟩)],
  [(6, ⟨1, some 1, 0, some 1, none, false, true, true⟩)],
  [(8, ⟨4, some 4, 0, some 1, none, false, true, true⟩)],
  [],
  [(8, ⟨4, some 4, 0, some 1, none, false, true, true⟩)],
  [(8, ⟨4, some 4, 0, some 1, none, false, true, true⟩)],
  [(8, ⟨4, some 4, 0, some 1, none, false, true, true⟩)],
  [(8, ⟨4, some 4, 0, some 1, none, false, true, true⟩)],
  [(8, ⟨4, some 4, 0, some 1, none, false, true, true⟩)],
  [(8, ⟨4, some 4, 0, some 1, none, false, true, true⟩)],
  [(8, ⟨4, some 4, 0, some 1, none, false, true, true⟩)],
  [(8, ⟨4, some 4, 0, some 1, none, false, true, true⟩)],
  [(6, ⟨3, some 3, 0, some 1, none, false, true, true⟩)],
  [(6, ⟨3, some 3, 0, some 1, none, false, true, true⟩)],
  [(11, ⟨3, some 3, 0, some 1, none, false, true, true⟩)],
  [],
  [(6, ⟨2, some 2, 0, some 1, none, false, true, true⟩)],
  [(2, ⟨1, some 1, 0, some 1, some 1, true, true, true⟩)],
  [(7, ⟨2, some 2, 0, some 1, none, false, true, true⟩)],
  [(7, ⟨3, some 3, 0, some 1, none, false, true, true⟩)],
  [(3, ⟨2, some 2, 0, some 1, none, false, true, true⟩)],
  [(4, ⟨3, some 3, 0, some 1, none, false, true, true⟩), (5, ⟨3, some 3, 0, some 1, none, false, true, true⟩)],
  [(9, ⟨3, some 3, 0, some 1, none, false, true, true⟩)],
  [(9, ⟨3, some 3, 0, some 1, none, false, true, true⟩)],
  [(9, ⟨3, some 3, 0, some 1, none, false, true, true⟩)],
  [(9, ⟨3, some 3, 0, some 1, none, false, true, true⟩)],
  [(9, ⟨3, some 3, 0, some 1, none, false, true, true⟩)],
  [(9, ⟨3, some 3, 0, some 1, none, false, true, true⟩)],
  [(9, ⟨3, some 3, 0, some 1, none, false, true, true⟩)],
  [(9, ⟨3, some 3, 0, some 1, none, false, true, true⟩)],
  [(9, ⟨3, some 3, 0, some 1, none, false, true, true⟩)],
  [(2, ⟨2, some 2, 0, some 1, none, false, true, true⟩)],
  [(3, ⟨3, some 3, 0, some 1, none, false, true, true⟩)],
  [(7, ⟨2, some 2, 0, some 1, none, false, true, true⟩)],
  [(7, ⟨3, some 3, 0, some 1, none, false, true, true⟩)],
  [(2, ⟨2, some 2, 0, some 1, none, false, true, true⟩)],
  [(2, ⟨1, some 1, 0, some 1, some 1, true, true, true⟩)],
  [(2, ⟨2, some 2, 0, some 1, none, false, true, true⟩)],
  [(2, ⟨3, some 3, 0, some 1, none, false, true, true⟩)],
  [(2, ⟨3, some 3, 0, some 1, none, false, true, true⟩)],
  [],
  [(2, ⟨2, some 2, 0, some 1, none, false, true, true⟩)],
  [(2, ⟨1, some 1, 0, some 1, some 1, true, true, true⟩)],
  [(2, ⟨2, some 2, 0, some 1, none, false, true, true⟩)],
  [(2, ⟨3, some 3, 0, some 1, none, false, true, true⟩)],
  [(2, ⟨4, some 4, 0, some 1, none, false, true, true⟩)]]

end Ferret.Scan.Ascii
