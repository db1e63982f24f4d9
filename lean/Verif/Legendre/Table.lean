import Verif.Legendre.Table.T00
import Verif.Legendre.Table.T01
import Verif.Legendre.Table.T02
import Verif.Legendre.Table.T03
import Verif.Legendre.Table.T04
import Verif.Legendre.Table.T05
import Verif.Legendre.Table.T06
import Verif.Legendre.Table.T07
import Verif.Legendre.Table.T08
import Verif.Legendre.Table.T09
import Verif.Legendre.Table.T10
import Verif.Legendre.Table.T11
import Verif.Legendre.Table.T12
import Verif.Legendre.Table.T13
import Verif.Legendre.Table.T14
import Verif.Legendre.Table.T15
import Verif.Legendre.Table.T16
import Verif.Legendre.Table.T17
import Verif.Legendre.Table.T18
import Verif.Legendre.Table.T19
import Verif.Legendre.Table.T20

/-! Generated by tools/leggen.py from source/ass_leg_function.cc: tables of pointers. -/

namespace PiBem.Legendre.Table

/-- Assignments `leg_pointers[n][m] = &P_n'_m'` of the constructor, in order
(ass_leg_function.cc:14-514), as `(n, m, n', m')`. -/
def valWires : List (ℕ × ℕ × ℕ × ℕ) :=
[(0, 0, 0, 0), (1, 0, 1, 0), (1, 1, 1, 1), (2, 0, 2, 0), (2, 1, 2, 1), (2, 2, 2, 2), (3, 0, 3, 0), (3, 1, 3, 1), (3,
    2, 3, 2), (3, 3, 3, 3), (4, 0, 4, 0), (4, 1, 4, 1), (4, 2, 4, 2), (4, 3, 4, 3), (4, 4, 4, 4), (5, 0, 5, 0), (5, 1,
    5, 1), (5, 2, 5, 2), (5, 3, 5, 3), (5, 4, 5, 4), (5, 5, 5, 5), (6, 0, 6, 0), (6, 1, 6, 1), (6, 2, 6, 2), (6, 3, 6,
    3), (6, 4, 6, 4), (6, 5, 6, 5), (6, 6, 6, 6), (7, 0, 7, 0), (7, 1, 7, 1), (7, 2, 7, 2), (7, 3, 7, 3), (7, 4, 7,
    4), (7, 5, 7, 5), (7, 6, 7, 6), (7, 7, 7, 7), (8, 0, 8, 0), (8, 1, 8, 1), (8, 2, 8, 2), (8, 3, 8, 3), (8, 4, 8,
    4), (8, 5, 8, 5), (8, 6, 8, 6), (8, 7, 8, 7), (8, 8, 8, 8), (9, 0, 9, 0), (9, 1, 9, 1), (9, 2, 9, 2), (9, 3, 9,
    3), (9, 4, 9, 4), (9, 5, 9, 5), (9, 6, 9, 6), (9, 7, 9, 7), (9, 8, 9, 8), (9, 9, 9, 9), (10, 0, 10, 0), (10, 1,
    10, 1), (10, 2, 10, 2), (10, 3, 10, 3), (10, 4, 10, 4), (10, 5, 10, 5), (10, 6, 10, 6), (10, 7, 10, 7), (10, 8,
    10, 8), (10, 9, 10, 9), (10, 10, 10, 10), (11, 0, 11, 0), (11, 1, 11, 1), (11, 2, 11, 2), (11, 3, 11, 3), (11, 4,
    11, 4), (11, 5, 11, 5), (11, 6, 11, 6), (11, 7, 11, 7), (11, 8, 11, 8), (11, 9, 11, 9), (11, 10, 11, 10), (11, 11,
    11, 11), (12, 0, 12, 0), (12, 1, 12, 1), (12, 2, 12, 2), (12, 3, 12, 3), (12, 4, 12, 4), (12, 5, 12, 5), (12, 6,
    12, 6), (12, 7, 12, 7), (12, 8, 12, 8), (12, 9, 12, 9), (12, 10, 12, 10), (12, 11, 12, 11), (12, 12, 12, 12), (13,
    0, 13, 0), (13, 1, 13, 1), (13, 2, 13, 2), (13, 3, 13, 3), (13, 4, 13, 4), (13, 5, 13, 5), (13, 6, 13, 6), (13, 7,
    13, 7), (13, 8, 13, 8), (13, 9, 13, 9), (13, 10, 13, 10), (13, 11, 13, 11), (13, 12, 13, 12), (13, 13, 13, 13),
    (14, 0, 14, 0), (14, 1, 14, 1), (14, 2, 14, 2), (14, 3, 14, 3), (14, 4, 14, 4), (14, 5, 14, 5), (14, 6, 14, 6),
    (14, 7, 14, 7), (14, 8, 14, 8), (14, 9, 14, 9), (14, 10, 14, 10), (14, 11, 14, 11), (14, 12, 14, 12), (14, 13, 14,
    13), (14, 14, 14, 14), (15, 0, 15, 0), (15, 1, 15, 1), (15, 2, 15, 2), (15, 3, 15, 3), (15, 4, 15, 4), (15, 5, 15,
    5), (15, 6, 15, 6), (15, 7, 15, 7), (15, 8, 15, 8), (15, 9, 15, 9), (15, 10, 15, 10), (15, 11, 15, 11), (15, 12,
    15, 12), (15, 13, 15, 13), (15, 14, 15, 14), (15, 15, 15, 15), (16, 0, 16, 0), (16, 1, 16, 1), (16, 2, 16, 2),
    (16, 3, 16, 3), (16, 4, 16, 4), (16, 5, 16, 5), (16, 6, 16, 6), (16, 7, 16, 7), (16, 8, 16, 8), (16, 9, 16, 9),
    (16, 10, 16, 10), (16, 11, 16, 11), (16, 12, 16, 12), (16, 13, 16, 13), (16, 14, 16, 14), (16, 15, 16, 15), (16,
    16, 16, 16), (17, 0, 17, 0), (17, 1, 17, 1), (17, 2, 17, 2), (17, 3, 17, 3), (17, 4, 17, 4), (17, 5, 17, 5), (17,
    6, 17, 6), (17, 7, 17, 7), (17, 8, 17, 8), (17, 9, 17, 9), (17, 10, 17, 10), (17, 11, 17, 11), (17, 12, 17, 12),
    (17, 13, 17, 13), (17, 14, 17, 14), (17, 15, 17, 15), (17, 16, 17, 16), (17, 17, 17, 17), (18, 0, 18, 0), (18, 1,
    18, 1), (18, 2, 18, 2), (18, 3, 18, 3), (18, 4, 18, 4), (18, 5, 18, 5), (18, 6, 18, 6), (18, 7, 18, 7), (18, 8,
    18, 8), (18, 9, 18, 9), (18, 10, 18, 10), (18, 11, 18, 11), (18, 12, 18, 12), (18, 13, 18, 13), (18, 14, 18, 14),
    (18, 15, 18, 15), (18, 16, 18, 16), (18, 17, 18, 17), (18, 18, 18, 18), (19, 0, 19, 0), (19, 1, 19, 1), (19, 2,
    19, 2), (19, 3, 19, 3), (19, 4, 19, 4), (19, 5, 19, 5), (19, 6, 19, 6), (19, 7, 19, 7), (19, 8, 19, 8), (19, 9,
    19, 9), (19, 10, 19, 10), (19, 11, 19, 11), (19, 12, 19, 12), (19, 13, 19, 13), (19, 14, 19, 14), (19, 15, 19,
    15), (19, 16, 19, 16), (19, 17, 19, 17), (19, 18, 19, 18), (19, 19, 19, 19), (20, 0, 20, 0), (20, 1, 20, 1), (20,
    2, 20, 2), (20, 3, 20, 3), (20, 4, 20, 4), (20, 5, 20, 5), (20, 6, 20, 6), (20, 7, 20, 7), (20, 8, 20, 8), (20, 9,
    20, 9), (20, 10, 20, 10), (20, 11, 20, 11), (20, 12, 20, 12), (20, 13, 20, 13), (20, 14, 20, 14), (20, 15, 20,
    15), (20, 16, 20, 16), (20, 17, 20, 17), (20, 18, 20, 18), (20, 19, 20, 19), (20, 20, 20, 20)]

/-- Assignments `leg_der_pointers[n][m] = &P_n'_m'_Deriv` of the constructor, in order
(ass_leg_function.cc:252-515), as `(n, m, n', m')`. -/
def derWires : List (ℕ × ℕ × ℕ × ℕ) :=
[(0, 0, 0, 0), (1, 0, 1, 0), (1, 1, 1, 1), (2, 0, 2, 0), (2, 1, 2, 1), (2, 2, 2, 2), (3, 0, 3, 0), (3, 1, 3, 1), (3,
    2, 3, 2), (3, 3, 3, 3), (4, 0, 4, 0), (4, 1, 4, 1), (4, 2, 4, 2), (4, 3, 4, 3), (4, 4, 4, 4), (5, 0, 5, 0), (5, 1,
    5, 1), (5, 2, 5, 2), (5, 3, 5, 3), (5, 4, 5, 4), (5, 5, 5, 5), (6, 0, 6, 0), (6, 1, 6, 1), (6, 2, 6, 2), (6, 3, 6,
    3), (6, 4, 6, 4), (6, 5, 6, 5), (6, 6, 6, 6), (7, 0, 7, 0), (7, 1, 7, 1), (7, 2, 7, 2), (7, 3, 7, 3), (7, 4, 7,
    4), (7, 5, 7, 5), (7, 6, 7, 6), (7, 7, 7, 7), (8, 0, 8, 0), (8, 1, 8, 1), (8, 2, 8, 2), (8, 3, 8, 3), (8, 4, 8,
    4), (8, 5, 8, 5), (8, 6, 8, 6), (8, 7, 8, 7), (8, 8, 8, 8), (9, 0, 9, 0), (9, 1, 9, 1), (9, 2, 9, 2), (9, 3, 9,
    3), (9, 4, 9, 4), (9, 5, 9, 5), (9, 6, 9, 6), (9, 7, 9, 7), (9, 8, 9, 8), (9, 9, 9, 9), (10, 0, 10, 0), (10, 1,
    10, 1), (10, 2, 10, 2), (10, 3, 10, 3), (10, 4, 10, 4), (10, 5, 10, 5), (10, 6, 10, 6), (10, 7, 10, 7), (10, 8,
    10, 8), (10, 9, 10, 9), (10, 10, 10, 10), (11, 0, 11, 0), (11, 1, 11, 1), (11, 2, 11, 2), (11, 3, 11, 3), (11, 4,
    11, 4), (11, 5, 11, 5), (11, 6, 11, 6), (11, 7, 11, 7), (11, 8, 11, 8), (11, 9, 11, 9), (11, 10, 11, 10), (11, 11,
    11, 11), (12, 0, 12, 0), (12, 1, 12, 1), (12, 2, 12, 2), (12, 3, 12, 3), (12, 4, 12, 4), (12, 5, 12, 5), (12, 6,
    12, 6), (12, 7, 12, 7), (12, 8, 12, 8), (12, 9, 12, 9), (12, 10, 12, 10), (12, 11, 12, 11), (12, 12, 12, 12), (13,
    0, 13, 0), (13, 1, 13, 1), (13, 2, 13, 2), (13, 3, 13, 3), (13, 4, 13, 4), (13, 5, 13, 5), (13, 6, 13, 6), (13, 7,
    13, 7), (13, 8, 13, 8), (13, 9, 13, 9), (13, 10, 13, 10), (13, 11, 13, 11), (13, 12, 13, 12), (13, 13, 13, 13),
    (14, 0, 14, 0), (14, 1, 14, 1), (14, 2, 14, 2), (14, 3, 14, 3), (14, 4, 14, 4), (14, 5, 14, 5), (14, 6, 14, 6),
    (14, 7, 14, 7), (14, 8, 14, 8), (14, 9, 14, 9), (14, 10, 14, 10), (14, 11, 14, 11), (14, 12, 14, 12), (14, 13, 14,
    13), (14, 14, 14, 14), (15, 0, 15, 0), (15, 1, 15, 1), (15, 2, 15, 2), (15, 3, 15, 3), (15, 4, 15, 4), (15, 5, 15,
    5), (15, 6, 15, 6), (15, 7, 15, 7), (15, 8, 15, 8), (15, 9, 15, 9), (15, 10, 15, 10), (15, 11, 15, 11), (15, 12,
    15, 12), (15, 13, 15, 13), (15, 14, 15, 14), (15, 15, 15, 15), (16, 0, 16, 0), (16, 1, 16, 1), (16, 2, 16, 2),
    (16, 3, 16, 3), (16, 4, 16, 4), (16, 5, 16, 5), (16, 6, 16, 6), (16, 7, 16, 7), (16, 8, 16, 8), (16, 9, 16, 9),
    (16, 10, 16, 10), (16, 11, 16, 11), (16, 12, 16, 12), (16, 13, 16, 13), (16, 14, 16, 14), (16, 15, 16, 15), (16,
    16, 16, 16), (17, 0, 17, 0), (17, 1, 17, 1), (17, 2, 17, 2), (17, 3, 17, 3), (17, 4, 17, 4), (17, 5, 17, 5), (17,
    6, 17, 6), (17, 7, 17, 7), (17, 8, 17, 8), (17, 9, 17, 9), (17, 10, 17, 10), (17, 11, 17, 11), (17, 12, 17, 12),
    (17, 13, 17, 13), (17, 14, 17, 14), (17, 15, 17, 15), (17, 16, 17, 16), (17, 17, 17, 17), (18, 0, 18, 0), (18, 1,
    18, 1), (18, 2, 18, 2), (18, 3, 18, 3), (18, 4, 18, 4), (18, 5, 18, 5), (18, 6, 18, 6), (18, 7, 18, 7), (18, 8,
    18, 8), (18, 9, 18, 9), (18, 10, 18, 10), (18, 11, 18, 11), (18, 12, 18, 12), (18, 13, 18, 13), (18, 14, 18, 14),
    (18, 15, 18, 15), (18, 16, 18, 16), (18, 17, 18, 17), (18, 18, 18, 18), (19, 0, 19, 0), (19, 1, 19, 1), (19, 2,
    19, 2), (19, 3, 19, 3), (19, 4, 19, 4), (19, 5, 19, 5), (19, 6, 19, 6), (19, 7, 19, 7), (19, 8, 19, 8), (19, 9,
    19, 9), (19, 10, 19, 10), (19, 11, 19, 11), (19, 12, 19, 12), (19, 13, 19, 13), (19, 14, 19, 14), (19, 15, 19,
    15), (19, 16, 19, 16), (19, 17, 19, 17), (19, 18, 19, 18), (19, 19, 19, 19), (20, 0, 20, 0), (20, 1, 20, 1), (20,
    2, 20, 2), (20, 3, 20, 3), (20, 4, 20, 4), (20, 5, 20, 5), (20, 6, 20, 6), (20, 7, 20, 7), (20, 8, 20, 8), (20, 9,
    20, 9), (20, 10, 20, 10), (20, 11, 20, 11), (20, 12, 20, 12), (20, 13, 20, 13), (20, 14, 20, 14), (20, 15, 20,
    15), (20, 16, 20, 16), (20, 17, 20, 17), (20, 18, 20, 18), (20, 19, 20, 19), (20, 20, 20, 20)]

/-- All functions, by degree and order. -/
def vals : List (List Prog) := [vals0, vals1, vals2, vals3, vals4, vals5, vals6, vals7, vals8, vals9, vals10, vals11,
    vals12, vals13, vals14, vals15, vals16, vals17, vals18, vals19, vals20]

/-- All functions, by degree and order. -/
def ders : List (List Prog) := [ders0, ders1, ders2, ders3, ders4, ders5, ders6, ders7, ders8, ders9, ders10, ders11,
    ders12, ders13, ders14, ders15, ders16, ders17, ders18, ders19, ders20]

/-- All certificates. -/
def certs : List (List (ℕ × ℕ × ℕ)) := [certs0, certs1, certs2, certs3, certs4, certs5, certs6, certs7, certs8,
    certs9, certs10, certs11, certs12, certs13, certs14, certs15, certs16, certs17, certs18, certs19, certs20]

/-- All rows pass the check. -/
theorem rows (n : ℕ) (hn : n < 21) : ∃ c p d, certs[n]? = some c ∧ vals[n]? = some p ∧ ders[n]? = some d ∧
    checkRow n 0 c p d = true := by
  match n, hn with
  | 0, _ => exact ⟨certs0, vals0, ders0, rfl, rfl, rfl, row0⟩
  | 1, _ => exact ⟨certs1, vals1, ders1, rfl, rfl, rfl, row1⟩
  | 2, _ => exact ⟨certs2, vals2, ders2, rfl, rfl, rfl, row2⟩
  | 3, _ => exact ⟨certs3, vals3, ders3, rfl, rfl, rfl, row3⟩
  | 4, _ => exact ⟨certs4, vals4, ders4, rfl, rfl, rfl, row4⟩
  | 5, _ => exact ⟨certs5, vals5, ders5, rfl, rfl, rfl, row5⟩
  | 6, _ => exact ⟨certs6, vals6, ders6, rfl, rfl, rfl, row6⟩
  | 7, _ => exact ⟨certs7, vals7, ders7, rfl, rfl, rfl, row7⟩
  | 8, _ => exact ⟨certs8, vals8, ders8, rfl, rfl, rfl, row8⟩
  | 9, _ => exact ⟨certs9, vals9, ders9, rfl, rfl, rfl, row9⟩
  | 10, _ => exact ⟨certs10, vals10, ders10, rfl, rfl, rfl, row10⟩
  | 11, _ => exact ⟨certs11, vals11, ders11, rfl, rfl, rfl, row11⟩
  | 12, _ => exact ⟨certs12, vals12, ders12, rfl, rfl, rfl, row12⟩
  | 13, _ => exact ⟨certs13, vals13, ders13, rfl, rfl, rfl, row13⟩
  | 14, _ => exact ⟨certs14, vals14, ders14, rfl, rfl, rfl, row14⟩
  | 15, _ => exact ⟨certs15, vals15, ders15, rfl, rfl, rfl, row15⟩
  | 16, _ => exact ⟨certs16, vals16, ders16, rfl, rfl, rfl, row16⟩
  | 17, _ => exact ⟨certs17, vals17, ders17, rfl, rfl, rfl, row17⟩
  | 18, _ => exact ⟨certs18, vals18, ders18, rfl, rfl, rfl, row18⟩
  | 19, _ => exact ⟨certs19, vals19, ders19, rfl, rfl, rfl, row19⟩
  | 20, _ => exact ⟨certs20, vals20, ders20, rfl, rfl, rfl, row20⟩
  | n + 21, h => exact absurd h (by omega)

end PiBem.Legendre.Table
