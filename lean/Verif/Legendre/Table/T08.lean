import Verif.Legendre.Check

/-! Generated by tools/leggen.py from source/ass_leg_function.cc: the functions `P_8_m` and `P_8_m_Deriv`. -/

namespace PiBem.Legendre.Table

open Ex

/-- `P_8_0` (ass_leg_function.cc:1677-1694). -/
def P_8_0 : Prog :=
⟨[(1, (mul x x)), (2, (mul (t 1) (t 1))), (3, (mul (t 2) (t 2))), (4, (sub (t 1) (num 1))), (8, (mul (t 4) (t 4))),
    (14, (mul (t 8) (t 8)))], (add (add (add (add (t 3) (mul (mul (mul (num 14) (t 4)) (t 2)) (t 1))) (mul (mul (div
    (num 105) (num 4)) (t 8)) (t 2))) (mul (mul (mul (div (num 35) (num 4)) (t 8)) (t 4)) (t 1))) (mul (div (num 35)
    (num 128)) (t 14)))⟩

/-- `P_8_0_Deriv` (ass_leg_function.cc:1696-1711). -/
def P_8_0_Deriv : Prog :=
⟨[(1, (mul x x)), (2, (mul (t 1) x)), (3, (mul (t 1) (t 1))), (6, (sub (t 1) (num 1))), (10, (mul (t 6) (t 6)))], (add
    (add (add (mul (mul (num 36) (t 3)) (t 2)) (mul (mul (mul (num 189) (t 6)) (t 3)) x)) (mul (mul (div (num 315)
    (num 2)) (t 2)) (t 10))) (mul (mul (mul (div (num 315) (num 16)) (t 10)) (t 6)) x))⟩

/-- `P_8_1` (ass_leg_function.cc:1715-1738). -/
def P_8_1 : Prog :=
⟨[(1, (sqrt (num 2))), (2, (mul x x)), (3, (sub (num 1) (t 2))), (4, (sqrt (t 3))), (6, (mul (t 2) x)), (7, (mul (t 2)
    (t 2))), (10, (neg (t 3))), (14, (mul (t 10) (t 10)))], (div (mul (mul (neg (t 1)) (t 4)) (add (add (add (mul (mul
    (num 371589120) (t 7)) (t 6)) (mul (mul (mul (num 1950842880) (t 10)) (t 7)) x)) (mul (mul (num 1625702400) (t
    14)) (t 6))) (mul (mul (mul (num 203212800) (t 14)) (t 10)) x))) (num 123863040))⟩

/-- `P_8_1_Deriv` (ass_leg_function.cc:1742-1771). -/
def P_8_1_Deriv : Prog :=
⟨[(1, (sqrt (num 2))), (2, (mul x x)), (3, (sub (num 1) (t 2))), (4, (sqrt (t 3))), (7, (mul (t 2) x)), (8, (mul (t 2)
    (t 2))), (11, (neg (t 3))), (15, (mul (t 11) (t 11))), (18, (mul (t 15) (t 11)))], (sub (div (mul (mul (div (t 1)
    (t 4)) (add (add (add (mul (mul (num 371589120) (t 7)) (t 8)) (mul (mul (mul (num 1950842880) (t 11)) (t 8)) x))
    (mul (mul (num 1625702400) (t 15)) (t 7))) (mul (mul (num 203212800) (t 18)) x))) x) (num 123863040)) (div (mul
    (mul (t 1) (t 4)) (add (add (add (mul (mul (num 6502809600) (t 8)) (t 2)) (mul (mul (num 16257024000) (t 11)) (t
    8))) (mul (mul (num 6096384000) (t 15)) (t 2))) (mul (num 203212800) (t 18)))) (num 123863040)))⟩

/-- `P_8_2` (ass_leg_function.cc:1775-1794). -/
def P_8_2 : Prog :=
⟨[(1, (sqrt (num 35))), (2, (mul x x)), (3, (sub (num 1) (t 2))), (5, (mul (t 2) (t 2))), (8, (neg (t 3))), (11, (mul
    (t 8) (t 8)))], (div (mul (mul (t 1) (t 3)) (add (add (add (mul (mul (num 6502809600) (t 5)) (t 2)) (mul (mul (num
    16257024000) (t 5)) (t 8))) (mul (mul (num 6096384000) (t 11)) (t 2))) (mul (mul (num 203212800) (t 11)) (t 8))))
    (num 4335206400))⟩

/-- `P_8_2_Deriv` (ass_leg_function.cc:1798-1819). -/
def P_8_2_Deriv : Prog :=
⟨[(1, (sqrt (num 35))), (3, (mul x x)), (4, (mul (t 3) (t 3))), (7, (sub (t 3) (num 1))), (10, (mul (t 7) (t 7)))],
    (sub (div (mul (mul (neg (t 1)) x) (add (add (add (mul (mul (num 6502809600) (t 4)) (t 3)) (mul (mul (num
    16257024000) (t 7)) (t 4))) (mul (mul (num 6096384000) (t 10)) (t 3))) (mul (mul (num 203212800) (t 10)) (t 7))))
    (num 2167603200)) (div (mul (mul (t 1) (t 7)) (add (add (mul (mul (num 71530905600) (t 4)) x) (mul (mul (mul (num
    89413632000) (t 7)) (t 3)) x)) (mul (mul (num 13412044800) (t 10)) x))) (num 4335206400)))⟩

/-- `P_8_3` (ass_leg_function.cc:1823-1844). -/
def P_8_3 : Prog :=
⟨[(1, (sqrt (num 2310))), (2, (mul x x)), (3, (sub (num 1) (t 2))), (4, (sqrt (t 3))), (7, (mul (t 2) (t 2))), (10,
    (neg (t 3))), (14, (mul (t 10) (t 10)))], (div (mul (mul (mul (neg (t 1)) (t 4)) (t 3)) (add (add (mul (mul (num
    71530905600) (t 7)) x) (mul (mul (mul (num 89413632000) (t 10)) (t 2)) x)) (mul (mul (num 13412044800) (t 14))
    x))) (num 286123622400))⟩

/-- `P_8_3_Deriv` (ass_leg_function.cc:1848-1873). -/
def P_8_3_Deriv : Prog :=
⟨[(1, (sqrt (num 2310))), (2, (mul x x)), (3, (sub (num 1) (t 2))), (4, (sqrt (t 3))), (6, (mul (t 2) (t 2))), (9,
    (neg (t 3))), (13, (mul (t 9) (t 9)))], (sub (div (mul (mul (mul (t 1) (t 4)) (add (add (mul (mul (num
    71530905600) (t 6)) x) (mul (mul (mul (num 89413632000) (t 2)) (t 9)) x)) (mul (mul (num 13412044800) (t 13)) x)))
    x) (num 95374540800)) (div (mul (mul (mul (t 1) (t 4)) (t 3)) (add (add (mul (num 536481792000) (t 6)) (mul (mul
    (num 321889075200) (t 9)) (t 2))) (mul (num 13412044800) (t 13)))) (num 286123622400)))⟩

/-- `P_8_4` (ass_leg_function.cc:1877-1898). -/
def P_8_4 : Prog :=
⟨[(1, (sqrt (num 154))), (2, (mul x x)), (3, (sub (num 1) (t 2))), (4, (mul (t 3) (t 3))), (6, (mul (t 2) (t 2))), (8,
    (neg (t 3))), (11, (mul (t 8) (t 8)))], (div (mul (mul (t 1) (t 4)) (add (add (mul (num 536481792000) (t 6)) (mul
    (mul (num 321889075200) (t 8)) (t 2))) (mul (num 13412044800) (t 11)))) (num 572247244800))⟩

/-- `P_8_4_Deriv` (ass_leg_function.cc:1902-1926). -/
def P_8_4_Deriv : Prog :=
⟨[(1, (sqrt (num 154))), (2, (mul x x)), (3, (sub (num 1) (t 2))), (5, (mul (t 2) (t 2))), (7, (neg (t 3))), (10, (mul
    (t 7) (t 7))), (16, (mul (t 3) (t 3)))], (add (div (mul (mul (mul (neg (t 1)) (t 3)) (add (add (mul (num
    536481792000) (t 5)) (mul (mul (num 321889075200) (t 7)) (t 2))) (mul (num 13412044800) (t 10)))) x) (num
    143061811200)) (div (mul (mul (t 1) (t 16)) (add (mul (mul (num 2789705318400) (t 2)) x) (mul (mul (num
    697426329600) (t 7)) x))) (num 572247244800)))⟩

/-- `P_8_5` (ass_leg_function.cc:1930-1946). -/
def P_8_5 : Prog :=
⟨[(1, (sqrt (num 2002))), (2, (mul x x)), (3, (sub (num 1) (t 2))), (4, (mul (t 3) (t 3))), (5, (sqrt (t 3)))], (div
    (mul (mul (mul (neg (t 1)) (t 5)) (t 4)) (sub (mul (mul (num 2789705318400) (t 2)) x) (mul (mul (num 697426329600)
    (t 3)) x))) (num 14878428364800))⟩

/-- `P_8_5_Deriv` (ass_leg_function.cc:1950-1968). -/
def P_8_5_Deriv : Prog :=
⟨[(1, (sqrt (num 2002))), (2, (mul x x)), (3, (sub (num 1) (t 2))), (4, (sqrt (t 3))), (16, (mul (t 3) (t 3)))], (sub
    (div (mul (mul (mul (mul (t 1) (t 4)) (t 3)) (sub (mul (mul (num 2789705318400) (t 2)) x) (mul (mul (num
    697426329600) (t 3)) x))) x) (num 2975685672960)) (div (mul (mul (mul (t 1) (t 4)) (t 16)) (sub (mul (num
    10461394944000) (t 2)) (num 697426329600))) (num 14878428364800)))⟩

/-- `P_8_6` (ass_leg_function.cc:1972-1985). -/
def P_8_6 : Prog :=
⟨[(1, (sqrt (num 429))), (2, (mul x x)), (3, (sub (num 1) (t 2))), (4, (mul (t 3) (t 3)))], (div (mul (mul (mul (t 1)
    (t 4)) (t 3)) (sub (mul (num 10461394944000) (t 2)) (num 697426329600))) (num 44635285094400))⟩

/-- `P_8_6_Deriv` (ass_leg_function.cc:1989-2003). -/
def P_8_6_Deriv : Prog :=
⟨[(1, (sqrt (num 429))), (2, (mul x x)), (3, (sub (num 1) (t 2))), (4, (mul (t 3) (t 3)))], (add (div (mul (mul (mul
    (neg (t 1)) (t 4)) (sub (mul (num 10461394944000) (t 2)) (num 697426329600))) x) (num 7439214182400)) (mul (mul
    (mul (mul (div (num 15) (num 32)) (t 1)) (t 4)) (t 3)) x))⟩

/-- `P_8_7` (ass_leg_function.cc:2007-2021). -/
def P_8_7 : Prog :=
⟨[(1, (sqrt (num 1430))), (2, (mul x x)), (3, (sub (num 1) (t 2))), (4, (mul (t 3) (t 3))), (6, (sqrt (t 3)))], (mul
    (mul (mul (mul (mul (div (neg (num 3)) (num 64)) (t 1)) (t 6)) (t 4)) (t 3)) x)⟩

/-- `P_8_7_Deriv` (ass_leg_function.cc:2025-2040). -/
def P_8_7_Deriv : Prog :=
⟨[(1, (sqrt (num 1430))), (2, (mul x x)), (3, (sub (num 1) (t 2))), (4, (mul (t 3) (t 3))), (5, (sqrt (t 3)))], (sub
    (mul (mul (mul (mul (div (num 21) (num 64)) (t 1)) (t 5)) (t 4)) (t 2)) (mul (mul (mul (mul (div (num 3) (num 64))
    (t 1)) (t 5)) (t 4)) (t 3)))⟩

/-- `P_8_8` (ass_leg_function.cc:2044-2056). -/
def P_8_8 : Prog :=
⟨[(1, (sqrt (num 1430))), (2, (mul x x)), (4, (sq (sub (num 1) (t 2)))), (5, (mul (t 4) (t 4)))], (mul (mul (div (num
    3) (num 256)) (t 1)) (t 5))⟩

/-- `P_8_8_Deriv` (ass_leg_function.cc:2060-2072). -/
def P_8_8_Deriv : Prog :=
⟨[(1, (sqrt (num 1430))), (2, (mul x x)), (3, (sub (num 1) (t 2))), (4, (mul (t 3) (t 3)))], (mul (mul (mul (mul (div
    (neg (num 3)) (num 32)) (t 1)) (t 4)) (t 3)) x)⟩

/-- The functions `P_8_m`. -/
def vals8 : List Prog := [P_8_0, P_8_1, P_8_2, P_8_3, P_8_4, P_8_5, P_8_6, P_8_7, P_8_8]

/-- The functions `P_8_m_Deriv`. -/
def ders8 : List Prog := [P_8_0_Deriv, P_8_1_Deriv, P_8_2_Deriv, P_8_3_Deriv, P_8_4_Deriv, P_8_5_Deriv, P_8_6_Deriv,
    P_8_7_Deriv, P_8_8_Deriv]

/-- Certificates. -/
def certs8 : List (ℕ × ℕ × ℕ) := [(1, 1, 1), (2, 1, 6), (35, 1, 12), (2310, 1, 12), (154, 1, 360), (2002, 1, 720),
    (429, 1, 10080), (1430, 1, 30240), (1430, 1, 120960)]

theorem row8 : checkRow 8 0 certs8 vals8 ders8 = true := by decide +kernel

end PiBem.Legendre.Table
