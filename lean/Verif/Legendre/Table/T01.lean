import Verif.Legendre.Check

/-! Generated by tools/leggen.py from source/ass_leg_function.cc: the functions `P_1_m` and `P_1_m_Deriv`. -/

namespace PiBem.Legendre.Table

open Ex

/-- `P_1_0` (ass_leg_function.cc:550-554). -/
def P_1_0 : Prog :=
⟨[], x⟩

/-- `P_1_0_Deriv` (ass_leg_function.cc:556-560). -/
def P_1_0_Deriv : Prog :=
⟨[], (num 1)⟩

/-- `P_1_1` (ass_leg_function.cc:562-572). -/
def P_1_1 : Prog :=
⟨[(1, (sqrt (num 2))), (2, (mul x x)), (4, (sqrt (sub (num 1) (t 2))))], (div (mul (neg (t 1)) (t 4)) (num 2))⟩

/-- `P_1_1_Deriv` (ass_leg_function.cc:576-586). -/
def P_1_1_Deriv : Prog :=
⟨[(1, (sqrt (num 2))), (2, (mul x x)), (4, (sqrt (sub (num 1) (t 2))))], (div (mul (div (t 1) (t 4)) x) (num 2))⟩

/-- The functions `P_1_m`. -/
def vals1 : List Prog := [P_1_0, P_1_1]

/-- The functions `P_1_m_Deriv`. -/
def ders1 : List Prog := [P_1_0_Deriv, P_1_1_Deriv]

/-- Certificates. -/
def certs1 : List (ℕ × ℕ × ℕ) := [(1, 1, 1), (2, 1, 1)]

theorem row1 : checkRow 1 0 certs1 vals1 ders1 = true := by decide +kernel

end PiBem.Legendre.Table
