import Verif.Legendre.Check

/-! Generated by tools/leggen.py from source/ass_leg_function.cc: the functions `P_0_m` and `P_0_m_Deriv`. -/

namespace PiBem.Legendre.Table

open Ex

/-- `P_0_0` (ass_leg_function.cc:538-542). -/
def P_0_0 : Prog :=
⟨[], (num 1)⟩

/-- `P_0_0_Deriv` (ass_leg_function.cc:544-548). -/
def P_0_0_Deriv : Prog :=
⟨[], (num 0)⟩

/-- The functions `P_0_m`. -/
def vals0 : List Prog := [P_0_0]

/-- The functions `P_0_m_Deriv`. -/
def ders0 : List Prog := [P_0_0_Deriv]

/-- Certificates. -/
def certs0 : List (ℕ × ℕ × ℕ) := [(1, 1, 1)]

theorem row0 : checkRow 0 0 certs0 vals0 ders0 = true := by decide +kernel

end PiBem.Legendre.Table
