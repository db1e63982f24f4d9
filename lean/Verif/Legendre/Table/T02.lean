import Verif.Legendre.Check

/-! Generated by tools/leggen.py from source/ass_leg_function.cc: the functions `P_2_m` and `P_2_m_Deriv`. -/

namespace PiBem.Legendre.Table

open Ex

/-- `P_2_0` (ass_leg_function.cc:588-594). -/
def P_2_0 : Prog :=
⟨[(1, (mul x x))], (sub (mul (div (num 3) (num 2)) (t 1)) (div (num 1) (num 2)))⟩

/-- `P_2_0_Deriv` (ass_leg_function.cc:596-600). -/
def P_2_0_Deriv : Prog :=
⟨[], (mul (num 3) x)⟩

/-- `P_2_1` (ass_leg_function.cc:604-614). -/
def P_2_1 : Prog :=
⟨[(1, (sqrt (num 6))), (2, (mul x x)), (4, (sqrt (sub (num 1) (t 2))))], (div (mul (mul (neg (t 1)) (t 4)) x) (num
    2))⟩

/-- `P_2_1_Deriv` (ass_leg_function.cc:618-628). -/
def P_2_1_Deriv : Prog :=
⟨[(1, (sqrt (num 6))), (2, (mul x x)), (4, (sqrt (sub (num 1) (t 2))))], (sub (div (mul (div (t 1) (t 4)) (t 2)) (num
    2)) (div (mul (t 1) (t 4)) (num 2)))⟩

/-- `P_2_2` (ass_leg_function.cc:632-640). -/
def P_2_2 : Prog :=
⟨[(1, (sqrt (num 6))), (2, (mul x x))], (div (mul (t 1) (sub (num 1) (t 2))) (num 4))⟩

/-- `P_2_2_Deriv` (ass_leg_function.cc:644-650). -/
def P_2_2_Deriv : Prog :=
⟨[(1, (sqrt (num 6)))], (div (mul (neg (t 1)) x) (num 2))⟩

/-- The functions `P_2_m`. -/
def vals2 : List Prog := [P_2_0, P_2_1, P_2_2]

/-- The functions `P_2_m_Deriv`. -/
def ders2 : List Prog := [P_2_0_Deriv, P_2_1_Deriv, P_2_2_Deriv]

/-- Certificates. -/
def certs2 : List (ℕ × ℕ × ℕ) := [(1, 1, 1), (6, 1, 1), (6, 1, 2)]

theorem row2 : checkRow 2 0 certs2 vals2 ders2 = true := by decide +kernel

end PiBem.Legendre.Table
