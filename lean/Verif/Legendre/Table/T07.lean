import Verif.Legendre.Check

/-! Generated by tools/leggen.py from source/ass_leg_function.cc: the functions `P_7_m` and `P_7_m_Deriv`. -/

namespace PiBem.Legendre.Table

open Ex

/-- `P_7_0` (ass_leg_function.cc:1348-1363). -/
def P_7_0 : Prog :=
⟨[(1, (mul x x)), (2, (mul (t 1) x)), (3, (mul (t 1) (t 1))), (5, (sub (t 1) (num 1))), (9, (mul (t 5) (t 5)))], (add
    (add (add (mul (t 3) (t 2)) (mul (mul (mul (div (num 21) (num 2)) (t 5)) (t 3)) x)) (mul (mul (div (num 105) (num
    8)) (t 9)) (t 2))) (mul (mul (mul (div (num 35) (num 16)) (t 9)) (t 5)) x))⟩

/-- `P_7_0_Deriv` (ass_leg_function.cc:1365-1378). -/
def P_7_0_Deriv : Prog :=
⟨[(1, (mul x x)), (2, (mul (t 1) (t 1))), (5, (sub (t 1) (num 1))), (8, (mul (t 5) (t 5)))], (add (add (add (mul (mul
    (num 28) (t 2)) (t 1)) (mul (mul (num 105) (t 2)) (t 5))) (mul (mul (div (num 105) (num 2)) (t 8)) (t 1))) (mul
    (mul (div (num 35) (num 16)) (t 8)) (t 5)))⟩

/-- `P_7_1` (ass_leg_function.cc:1382-1403). -/
def P_7_1 : Prog :=
⟨[(1, (sqrt (num 14))), (2, (mul x x)), (3, (sub (num 1) (t 2))), (4, (sqrt (t 3))), (6, (mul (t 2) (t 2))), (9, (neg
    (t 3))), (12, (mul (t 9) (t 9)))], (div (mul (mul (neg (t 1)) (t 4)) (add (add (add (mul (mul (num 18063360) (t
    6)) (t 2)) (mul (mul (num 67737600) (t 9)) (t 6))) (mul (mul (num 33868800) (t 12)) (t 2))) (mul (mul (num
    1411200) (t 12)) (t 9)))) (num 18063360))⟩

/-- `P_7_1_Deriv` (ass_leg_function.cc:1407-1432). -/
def P_7_1_Deriv : Prog :=
⟨[(1, (sqrt (num 14))), (2, (mul x x)), (3, (sub (num 1) (t 2))), (4, (sqrt (t 3))), (7, (mul (t 2) (t 2))), (10, (neg
    (t 3))), (13, (mul (t 10) (t 10)))], (sub (div (mul (mul (div (t 1) (t 4)) (add (add (add (mul (mul (num 18063360)
    (t 2)) (t 7)) (mul (mul (num 67737600) (t 10)) (t 7))) (mul (mul (num 33868800) (t 13)) (t 2))) (mul (mul (num
    1411200) (t 13)) (t 10)))) x) (num 18063360)) (div (mul (mul (t 1) (t 4)) (add (add (mul (mul (num 243855360) (t
    7)) x) (mul (mul (mul (num 406425600) (t 10)) (t 2)) x)) (mul (mul (num 76204800) (t 13)) x))) (num 18063360)))⟩

/-- `P_7_2` (ass_leg_function.cc:1436-1455). -/
def P_7_2 : Prog :=
⟨[(1, (sqrt (num 21))), (2, (mul x x)), (3, (sub (num 1) (t 2))), (5, (mul (t 2) (t 2))), (8, (neg (t 3))), (12, (mul
    (t 8) (t 8)))], (div (mul (mul (t 1) (t 3)) (add (add (mul (mul (num 243855360) (t 5)) x) (mul (mul (mul (num
    406425600) (t 8)) (t 2)) x)) (mul (mul (num 76204800) (t 12)) x))) (num 162570240))⟩

/-- `P_7_2_Deriv` (ass_leg_function.cc:1459-1480). -/
def P_7_2_Deriv : Prog :=
⟨[(1, (sqrt (num 21))), (3, (mul x x)), (4, (mul (t 3) (t 3))), (7, (sub (t 3) (num 1))), (11, (mul (t 7) (t 7)))],
    (sub (div (mul (mul (neg (t 1)) x) (add (add (mul (mul (num 243855360) (t 4)) x) (mul (mul (mul (num 406425600) (t
    7)) (t 3)) x)) (mul (mul (num 76204800) (t 11)) x))) (num 81285120)) (div (mul (mul (t 1) (t 7)) (add (add (mul
    (num 2032128000) (t 4)) (mul (mul (num 1524096000) (t 7)) (t 3))) (mul (num 76204800) (t 11)))) (num 162570240)))⟩

/-- `P_7_3` (ass_leg_function.cc:1484-1505). -/
def P_7_3 : Prog :=
⟨[(1, (sqrt (num 42))), (2, (mul x x)), (3, (sub (num 1) (t 2))), (4, (sqrt (t 3))), (7, (mul (t 2) (t 2))), (9, (neg
    (t 3))), (12, (mul (t 9) (t 9)))], (div (mul (mul (mul (neg (t 1)) (t 4)) (t 3)) (add (add (mul (num 2032128000)
    (t 7)) (mul (mul (num 1524096000) (t 9)) (t 2))) (mul (num 76204800) (t 12)))) (num 1625702400))⟩

/-- `P_7_3_Deriv` (ass_leg_function.cc:1509-1532). -/
def P_7_3_Deriv : Prog :=
⟨[(1, (sqrt (num 42))), (2, (mul x x)), (3, (sub (num 1) (t 2))), (4, (sqrt (t 3))), (6, (mul (t 2) (t 2))), (8, (neg
    (t 3))), (11, (mul (t 8) (t 8)))], (sub (div (mul (mul (mul (t 1) (t 4)) (add (add (mul (num 2032128000) (t 6))
    (mul (mul (num 1524096000) (t 8)) (t 2))) (mul (num 76204800) (t 11)))) x) (num 541900800)) (div (mul (mul (mul (t
    1) (t 4)) (t 3)) (add (mul (mul (num 11176704000) (t 2)) x) (mul (mul (num 3353011200) (t 8)) x))) (num
    1625702400)))⟩

/-- `P_7_4` (ass_leg_function.cc:1536-1549). -/
def P_7_4 : Prog :=
⟨[(1, (sqrt (num 462))), (2, (mul x x)), (3, (sub (num 1) (t 2))), (4, (mul (t 3) (t 3)))], (div (mul (mul (t 1) (t
    4)) (sub (mul (mul (num 11176704000) (t 2)) x) (mul (mul (num 3353011200) (t 3)) x))) (num 35765452800))⟩

/-- `P_7_4_Deriv` (ass_leg_function.cc:1553-1568). -/
def P_7_4_Deriv : Prog :=
⟨[(1, (sqrt (num 462))), (2, (mul x x)), (3, (sub (num 1) (t 2))), (14, (mul (t 3) (t 3)))], (add (div (mul (mul (mul
    (neg (t 1)) (t 3)) (sub (mul (mul (num 11176704000) (t 2)) x) (mul (mul (num 3353011200) (t 3)) x))) x) (num
    8941363200)) (div (mul (mul (t 1) (t 14)) (sub (mul (num 43589145600) (t 2)) (num 3353011200))) (num
    35765452800)))⟩

/-- `P_7_5` (ass_leg_function.cc:1572-1587). -/
def P_7_5 : Prog :=
⟨[(1, (sqrt (num 462))), (2, (mul x x)), (3, (sub (num 1) (t 2))), (4, (mul (t 3) (t 3))), (5, (sqrt (t 3)))], (div
    (mul (mul (mul (neg (t 1)) (t 5)) (t 4)) (sub (mul (num 43589145600) (t 2)) (num 3353011200))) (num
    214592716800))⟩

/-- `P_7_5_Deriv` (ass_leg_function.cc:1591-1607). -/
def P_7_5_Deriv : Prog :=
⟨[(1, (sqrt (num 462))), (2, (mul x x)), (3, (sub (num 1) (t 2))), (4, (sqrt (t 3))), (12, (mul (t 3) (t 3)))], (sub
    (div (mul (mul (mul (mul (t 1) (t 4)) (t 3)) (sub (mul (num 43589145600) (t 2)) (num 3353011200))) x) (num
    42918543360)) (mul (mul (mul (mul (div (num 13) (num 32)) (t 1)) (t 4)) (t 12)) x))⟩

/-- `P_7_6` (ass_leg_function.cc:1611-1623). -/
def P_7_6 : Prog :=
⟨[(1, (sqrt (num 3003))), (2, (mul x x)), (3, (sub (num 1) (t 2))), (4, (mul (t 3) (t 3)))], (div (mul (mul (mul (t 1)
    (t 4)) (t 3)) x) (num 32))⟩

/-- `P_7_6_Deriv` (ass_leg_function.cc:1627-1639). -/
def P_7_6_Deriv : Prog :=
⟨[(1, (sqrt (num 3003))), (2, (mul x x)), (3, (sub (num 1) (t 2))), (4, (mul (t 3) (t 3)))], (add (mul (mul (mul (div
    (neg (num 3)) (num 16)) (t 1)) (t 4)) (t 2)) (div (mul (mul (t 1) (t 4)) (t 3)) (num 32)))⟩

/-- `P_7_7` (ass_leg_function.cc:1643-1657). -/
def P_7_7 : Prog :=
⟨[(1, (sqrt (num 858))), (2, (mul x x)), (3, (sub (num 1) (t 2))), (4, (mul (t 3) (t 3))), (6, (sqrt (t 3)))], (div
    (mul (mul (mul (neg (t 1)) (t 6)) (t 4)) (t 3)) (num 64))⟩

/-- `P_7_7_Deriv` (ass_leg_function.cc:1661-1675). -/
def P_7_7_Deriv : Prog :=
⟨[(1, (sqrt (num 858))), (2, (mul x x)), (3, (sub (num 1) (t 2))), (4, (mul (t 3) (t 3))), (5, (sqrt (t 3)))], (mul
    (mul (mul (mul (div (num 7) (num 64)) (t 1)) (t 5)) (t 4)) x)⟩

/-- The functions `P_7_m`. -/
def vals7 : List Prog := [P_7_0, P_7_1, P_7_2, P_7_3, P_7_4, P_7_5, P_7_6, P_7_7]

/-- The functions `P_7_m_Deriv`. -/
def ders7 : List Prog := [P_7_0_Deriv, P_7_1_Deriv, P_7_2_Deriv, P_7_3_Deriv, P_7_4_Deriv, P_7_5_Deriv, P_7_6_Deriv,
    P_7_7_Deriv]

/-- Certificates. -/
def certs7 : List (ℕ × ℕ × ℕ) := [(1, 1, 1), (14, 1, 2), (21, 1, 12), (42, 1, 60), (462, 1, 120), (462, 1, 720),
    (3003, 1, 1440), (858, 1, 10080)]

theorem row7 : checkRow 7 0 certs7 vals7 ders7 = true := by decide +kernel

end PiBem.Legendre.Table
