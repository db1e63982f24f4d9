import Verif.Legendre.Check

/-! Generated by tools/leggen.py from source/ass_leg_function.cc: the functions `P_3_m` and `P_3_m_Deriv`. -/

namespace PiBem.Legendre.Table

open Ex

/-- `P_3_0` (ass_leg_function.cc:652-658). -/
def P_3_0 : Prog :=
⟨[(1, (mul x x))], (add (mul (t 1) x) (mul (mul (div (num 3) (num 2)) (sub (t 1) (num 1))) x))⟩

/-- `P_3_0_Deriv` (ass_leg_function.cc:660-666). -/
def P_3_0_Deriv : Prog :=
⟨[(1, (mul x x))], (sub (mul (div (num 15) (num 2)) (t 1)) (div (num 3) (num 2)))⟩

/-- `P_3_1` (ass_leg_function.cc:670-680). -/
def P_3_1 : Prog :=
⟨[(1, (sqrt (num 3))), (2, (mul x x)), (4, (sqrt (sub (num 1) (t 2))))], (div (mul (mul (neg (t 1)) (t 4)) (sub (mul
    (num 360) (t 2)) (num 72))) (num 288))⟩

/-- `P_3_1_Deriv` (ass_leg_function.cc:684-695). -/
def P_3_1_Deriv : Prog :=
⟨[(1, (sqrt (num 3))), (2, (mul x x)), (4, (sqrt (sub (num 1) (t 2))))], (sub (div (mul (mul (div (t 1) (t 4)) (sub
    (mul (num 360) (t 2)) (num 72))) x) (num 288)) (mul (mul (mul (div (num 5) (num 2)) (t 1)) (t 4)) x))⟩

/-- `P_3_2` (ass_leg_function.cc:699-707). -/
def P_3_2 : Prog :=
⟨[(1, (sqrt (num 30))), (2, (mul x x))], (div (mul (mul (t 1) (sub (num 1) (t 2))) x) (num 4))⟩

/-- `P_3_2_Deriv` (ass_leg_function.cc:711-719). -/
def P_3_2_Deriv : Prog :=
⟨[(1, (sqrt (num 30))), (2, (mul x x))], (add (div (mul (neg (t 1)) (t 2)) (num 2)) (div (mul (t 1) (sub (num 1) (t
    2))) (num 4)))⟩

/-- `P_3_3` (ass_leg_function.cc:723-735). -/
def P_3_3 : Prog :=
⟨[(1, (sqrt (num 5))), (2, (mul x x)), (3, (sub (num 1) (t 2))), (4, (sqrt (t 3)))], (div (mul (mul (neg (t 1)) (t 4))
    (t 3)) (num 4))⟩

/-- `P_3_3_Deriv` (ass_leg_function.cc:739-749). -/
def P_3_3_Deriv : Prog :=
⟨[(1, (sqrt (num 5))), (2, (mul x x)), (4, (sqrt (sub (num 1) (t 2))))], (mul (mul (mul (div (num 3) (num 4)) (t 1))
    (t 4)) x)⟩

/-- The functions `P_3_m`. -/
def vals3 : List Prog := [P_3_0, P_3_1, P_3_2, P_3_3]

/-- The functions `P_3_m_Deriv`. -/
def ders3 : List Prog := [P_3_0_Deriv, P_3_1_Deriv, P_3_2_Deriv, P_3_3_Deriv]

/-- Certificates. -/
def certs3 : List (ℕ × ℕ × ℕ) := [(1, 1, 1), (3, 1, 2), (30, 1, 2), (5, 1, 12)]

theorem row3 : checkRow 3 0 certs3 vals3 ders3 = true := by decide +kernel

end PiBem.Legendre.Table
