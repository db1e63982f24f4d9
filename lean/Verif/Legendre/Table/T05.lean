import Verif.Legendre.Check

/-! Generated by tools/leggen.py from source/ass_leg_function.cc: the functions `P_5_m` and `P_5_m_Deriv`. -/

namespace PiBem.Legendre.Table

open Ex

/-- `P_5_0` (ass_leg_function.cc:889-901). -/
def P_5_0 : Prog :=
⟨[(1, (mul x x)), (2, (mul (t 1) (t 1))), (4, (sub (t 1) (num 1))), (8, (mul (t 4) (t 4)))], (add (add (mul (t 2) x)
    (mul (mul (mul (num 5) (t 4)) (t 1)) x)) (mul (mul (div (num 15) (num 8)) (t 8)) x))⟩

/-- `P_5_0_Deriv` (ass_leg_function.cc:903-915). -/
def P_5_0_Deriv : Prog :=
⟨[(1, (mul x x)), (2, (mul (t 1) (t 1))), (4, (sub (t 1) (num 1))), (7, (mul (t 4) (t 4)))], (add (add (mul (num 15)
    (t 2)) (mul (mul (div (num 45) (num 2)) (t 1)) (t 4))) (mul (div (num 15) (num 8)) (t 7)))⟩

/-- `P_5_1` (ass_leg_function.cc:919-938). -/
def P_5_1 : Prog :=
⟨[(1, (sqrt (num 30))), (2, (mul x x)), (3, (sub (num 1) (t 2))), (4, (sqrt (t 3))), (6, (mul (t 2) (t 2))), (8, (neg
    (t 3))), (11, (mul (t 8) (t 8)))], (div (mul (mul (neg (t 1)) (t 4)) (add (add (mul (num 57600) (t 6)) (mul (mul
    (num 86400) (t 8)) (t 2))) (mul (num 7200) (t 11)))) (num 115200))⟩

/-- `P_5_1_Deriv` (ass_leg_function.cc:942-962). -/
def P_5_1_Deriv : Prog :=
⟨[(1, (sqrt (num 30))), (2, (mul x x)), (3, (sub (num 1) (t 2))), (4, (sqrt (t 3))), (7, (mul (t 2) (t 2))), (9, (neg
    (t 3))), (12, (mul (t 9) (t 9)))], (sub (div (mul (mul (div (t 1) (t 4)) (add (add (mul (num 57600) (t 7)) (mul
    (mul (num 86400) (t 9)) (t 2))) (mul (num 7200) (t 12)))) x) (num 115200)) (div (mul (mul (t 1) (t 4)) (add (mul
    (mul (num 403200) (t 2)) x) (mul (mul (num 201600) (t 9)) x))) (num 115200)))⟩

/-- `P_5_2` (ass_leg_function.cc:966-976). -/
def P_5_2 : Prog :=
⟨[(1, (sqrt (num 210))), (2, (mul x x)), (3, (sub (num 1) (t 2)))], (div (mul (mul (t 1) (t 3)) (sub (mul (mul (num
    403200) (t 2)) x) (mul (mul (num 201600) (t 3)) x))) (num 1612800))⟩

/-- `P_5_2_Deriv` (ass_leg_function.cc:980-991). -/
def P_5_2_Deriv : Prog :=
⟨[(1, (sqrt (num 210))), (3, (mul x x)), (6, (sub (t 3) (num 1)))], (sub (div (mul (mul (neg (t 1)) x) (add (mul (mul
    (num 403200) (t 3)) x) (mul (mul (num 201600) (t 6)) x))) (num 806400)) (div (mul (mul (t 1) (t 6)) (sub (mul (num
    1814400) (t 3)) (num 201600))) (num 1612800)))⟩

/-- `P_5_3` (ass_leg_function.cc:995-1007). -/
def P_5_3 : Prog :=
⟨[(1, (sqrt (num 35))), (2, (mul x x)), (3, (sub (num 1) (t 2))), (4, (sqrt (t 3)))], (div (mul (mul (mul (neg (t 1))
    (t 4)) (t 3)) (sub (mul (num 1814400) (t 2)) (num 201600))) (num 3225600))⟩

/-- `P_5_3_Deriv` (ass_leg_function.cc:1011-1024). -/
def P_5_3_Deriv : Prog :=
⟨[(1, (sqrt (num 35))), (2, (mul x x)), (3, (sub (num 1) (t 2))), (4, (sqrt (t 3)))], (sub (div (mul (mul (mul (t 1)
    (t 4)) (sub (mul (num 1814400) (t 2)) (num 201600))) x) (num 1075200)) (mul (mul (mul (mul (div (num 9) (num 8))
    (t 1)) (t 4)) (t 3)) x))⟩

/-- `P_5_4` (ass_leg_function.cc:1028-1038). -/
def P_5_4 : Prog :=
⟨[(1, (sqrt (num 70))), (2, (mul x x)), (4, (sq (sub (num 1) (t 2))))], (mul (mul (mul (div (num 3) (num 16)) (t 1))
    (t 4)) x)⟩

/-- `P_5_4_Deriv` (ass_leg_function.cc:1042-1054). -/
def P_5_4_Deriv : Prog :=
⟨[(1, (sqrt (num 70))), (2, (mul x x)), (3, (sub (num 1) (t 2))), (7, (mul (t 3) (t 3)))], (add (mul (mul (mul (div
    (neg (num 3)) (num 4)) (t 1)) (t 3)) (t 2)) (mul (mul (div (num 3) (num 16)) (t 1)) (t 7)))⟩

/-- `P_5_5` (ass_leg_function.cc:1058-1072). -/
def P_5_5 : Prog :=
⟨[(1, (sqrt (num 7))), (2, (mul x x)), (3, (sub (num 1) (t 2))), (4, (mul (t 3) (t 3))), (5, (sqrt (t 3)))], (mul (mul
    (mul (div (neg (num 3)) (num 16)) (t 1)) (t 5)) (t 4))⟩

/-- `P_5_5_Deriv` (ass_leg_function.cc:1076-1088). -/
def P_5_5_Deriv : Prog :=
⟨[(1, (sqrt (num 7))), (2, (mul x x)), (3, (sub (num 1) (t 2))), (4, (sqrt (t 3)))], (mul (mul (mul (mul (div (num 15)
    (num 16)) (t 1)) (t 4)) (t 3)) x)⟩

/-- The functions `P_5_m`. -/
def vals5 : List Prog := [P_5_0, P_5_1, P_5_2, P_5_3, P_5_4, P_5_5]

/-- The functions `P_5_m_Deriv`. -/
def ders5 : List Prog := [P_5_0_Deriv, P_5_1_Deriv, P_5_2_Deriv, P_5_3_Deriv, P_5_4_Deriv, P_5_5_Deriv]

/-- Certificates. -/
def certs5 : List (ℕ × ℕ × ℕ) := [(1, 1, 1), (30, 1, 1), (210, 1, 2), (35, 1, 24), (70, 1, 72), (7, 1, 720)]

theorem row5 : checkRow 5 0 certs5 vals5 ders5 = true := by decide +kernel

end PiBem.Legendre.Table
