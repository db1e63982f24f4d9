import Verif.Legendre.Check

/-! Generated by tools/leggen.py from source/ass_leg_function.cc: the functions `P_6_m` and `P_6_m_Deriv`. -/

namespace PiBem.Legendre.Table

open Ex

/-- `P_6_0` (ass_leg_function.cc:1090-1103). -/
def P_6_0 : Prog :=
⟨[(1, (mul x x)), (2, (mul (t 1) (t 1))), (4, (sub (t 1) (num 1))), (7, (mul (t 4) (t 4)))], (add (add (add (mul (t 2)
    (t 1)) (mul (mul (div (num 15) (num 2)) (t 4)) (t 2))) (mul (mul (div (num 45) (num 8)) (t 7)) (t 1))) (mul (mul
    (div (num 5) (num 16)) (t 7)) (t 4)))⟩

/-- `P_6_0_Deriv` (ass_leg_function.cc:1105-1118). -/
def P_6_0_Deriv : Prog :=
⟨[(1, (mul x x)), (2, (mul (t 1) (t 1))), (5, (sub (t 1) (num 1))), (9, (mul (t 5) (t 5)))], (add (add (mul (mul (num
    21) (t 2)) x) (mul (mul (mul (div (num 105) (num 2)) (t 5)) (t 1)) x)) (mul (mul (div (num 105) (num 8)) (t 9))
    x))⟩

/-- `P_6_1` (ass_leg_function.cc:1122-1143). -/
def P_6_1 : Prog :=
⟨[(1, (sqrt (num 42))), (2, (mul x x)), (3, (sub (num 1) (t 2))), (4, (sqrt (t 3))), (6, (mul (t 2) (t 2))), (9, (neg
    (t 3))), (13, (mul (t 9) (t 9)))], (div (mul (mul (neg (t 1)) (t 4)) (add (add (mul (mul (num 967680) (t 6)) x)
    (mul (mul (mul (num 2419200) (t 9)) (t 2)) x)) (mul (mul (num 604800) (t 13)) x))) (num 1935360))⟩

/-- `P_6_1_Deriv` (ass_leg_function.cc:1147-1171). -/
def P_6_1_Deriv : Prog :=
⟨[(1, (sqrt (num 42))), (2, (mul x x)), (3, (sub (num 1) (t 2))), (4, (sqrt (t 3))), (7, (mul (t 2) (t 2))), (10, (neg
    (t 3))), (14, (mul (t 10) (t 10)))], (sub (div (mul (mul (div (t 1) (t 4)) (add (add (mul (mul (num 967680) (t 7))
    x) (mul (mul (mul (num 2419200) (t 10)) (t 2)) x)) (mul (mul (num 604800) (t 14)) x))) x) (num 1935360)) (div (mul
    (mul (t 1) (t 4)) (add (add (mul (num 9676800) (t 7)) (mul (mul (num 9676800) (t 10)) (t 2))) (mul (num 604800) (t
    14)))) (num 1935360)))⟩

/-- `P_6_2` (ass_leg_function.cc:1175-1193). -/
def P_6_2 : Prog :=
⟨[(1, (sqrt (num 105))), (2, (mul x x)), (3, (sub (num 1) (t 2))), (5, (mul (t 2) (t 2))), (7, (neg (t 3))), (10, (mul
    (t 7) (t 7)))], (div (mul (mul (t 1) (t 3)) (add (add (mul (num 9676800) (t 5)) (mul (mul (num 9676800) (t 7)) (t
    2))) (mul (num 604800) (t 10)))) (num 19353600))⟩

/-- `P_6_2_Deriv` (ass_leg_function.cc:1197-1214). -/
def P_6_2_Deriv : Prog :=
⟨[(1, (sqrt (num 105))), (3, (mul x x)), (4, (mul (t 3) (t 3))), (6, (sub (t 3) (num 1))), (9, (mul (t 6) (t 6)))],
    (sub (div (mul (mul (neg (t 1)) x) (add (add (mul (num 9676800) (t 4)) (mul (mul (num 9676800) (t 6)) (t 3))) (mul
    (num 604800) (t 9)))) (num 9676800)) (div (mul (mul (t 1) (t 6)) (add (mul (mul (num 58060800) (t 3)) x) (mul (mul
    (num 21772800) (t 6)) x))) (num 19353600)))⟩

/-- `P_6_3` (ass_leg_function.cc:1218-1231). -/
def P_6_3 : Prog :=
⟨[(1, (sqrt (num 105))), (2, (mul x x)), (3, (sub (num 1) (t 2))), (4, (sqrt (t 3)))], (div (mul (mul (mul (neg (t 1))
    (t 4)) (t 3)) (sub (mul (mul (num 58060800) (t 2)) x) (mul (mul (num 21772800) (t 3)) x))) (num 116121600))⟩

/-- `P_6_3_Deriv` (ass_leg_function.cc:1235-1249). -/
def P_6_3_Deriv : Prog :=
⟨[(1, (sqrt (num 105))), (2, (mul x x)), (3, (sub (num 1) (t 2))), (4, (sqrt (t 3)))], (sub (div (mul (mul (mul (t 1)
    (t 4)) (sub (mul (mul (num 58060800) (t 2)) x) (mul (mul (num 21772800) (t 3)) x))) x) (num 38707200)) (div (mul
    (mul (mul (t 1) (t 4)) (t 3)) (sub (mul (num 239500800) (t 2)) (num 21772800))) (num 116121600)))⟩

/-- `P_6_4` (ass_leg_function.cc:1253-1263). -/
def P_6_4 : Prog :=
⟨[(1, (sqrt (num 14))), (2, (mul x x)), (4, (sq (sub (num 1) (t 2))))], (div (mul (mul (t 1) (t 4)) (sub (mul (num
    239500800) (t 2)) (num 21772800))) (num 232243200))⟩

/-- `P_6_4_Deriv` (ass_leg_function.cc:1267-1280). -/
def P_6_4_Deriv : Prog :=
⟨[(1, (sqrt (num 14))), (2, (mul x x)), (3, (sub (num 1) (t 2))), (10, (mul (t 3) (t 3)))], (add (div (mul (mul (mul
    (neg (t 1)) (t 3)) (sub (mul (num 239500800) (t 2)) (num 21772800))) x) (num 58060800)) (mul (mul (mul (div (num
    33) (num 16)) (t 1)) (t 10)) x))⟩

/-- `P_6_5` (ass_leg_function.cc:1284-1298). -/
def P_6_5 : Prog :=
⟨[(1, (sqrt (num 77))), (2, (mul x x)), (3, (sub (num 1) (t 2))), (4, (mul (t 3) (t 3))), (5, (sqrt (t 3)))], (mul
    (mul (mul (mul (div (neg (num 3)) (num 16)) (t 1)) (t 5)) (t 4)) x)⟩

/-- `P_6_5_Deriv` (ass_leg_function.cc:1302-1316). -/
def P_6_5_Deriv : Prog :=
⟨[(1, (sqrt (num 77))), (2, (mul x x)), (3, (sub (num 1) (t 2))), (4, (sqrt (t 3))), (9, (mul (t 3) (t 3)))], (sub
    (mul (mul (mul (mul (div (num 15) (num 16)) (t 1)) (t 4)) (t 3)) (t 2)) (mul (mul (mul (div (num 3) (num 16)) (t
    1)) (t 4)) (t 9)))⟩

/-- `P_6_6` (ass_leg_function.cc:1320-1332). -/
def P_6_6 : Prog :=
⟨[(1, (sqrt (num 231))), (2, (mul x x)), (3, (sub (num 1) (t 2))), (4, (mul (t 3) (t 3)))], (div (mul (mul (t 1) (t
    4)) (t 3)) (num 32))⟩

/-- `P_6_6_Deriv` (ass_leg_function.cc:1336-1346). -/
def P_6_6_Deriv : Prog :=
⟨[(1, (sqrt (num 231))), (2, (mul x x)), (4, (sq (sub (num 1) (t 2))))], (mul (mul (mul (div (neg (num 3)) (num 16))
    (t 1)) (t 4)) x)⟩

/-- The functions `P_6_m`. -/
def vals6 : List Prog := [P_6_0, P_6_1, P_6_2, P_6_3, P_6_4, P_6_5, P_6_6]

/-- The functions `P_6_m_Deriv`. -/
def ders6 : List Prog := [P_6_0_Deriv, P_6_1_Deriv, P_6_2_Deriv, P_6_3_Deriv, P_6_4_Deriv, P_6_5_Deriv, P_6_6_Deriv]

/-- Certificates. -/
def certs6 : List (ℕ × ℕ × ℕ) := [(1, 1, 1), (42, 1, 1), (105, 1, 4), (105, 1, 24), (14, 1, 360), (77, 1, 720), (231,
    1, 1440)]

theorem row6 : checkRow 6 0 certs6 vals6 ders6 = true := by decide +kernel

end PiBem.Legendre.Table
