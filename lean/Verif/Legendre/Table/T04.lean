import Verif.Legendre.Check

/-! Generated by tools/leggen.py from source/ass_leg_function.cc: the functions `P_4_m` and `P_4_m_Deriv`. -/

namespace PiBem.Legendre.Table

open Ex

/-- `P_4_0` (ass_leg_function.cc:751-763). -/
def P_4_0 : Prog :=
⟨[(1, (mul x x)), (2, (mul (t 1) (t 1))), (3, (sub (t 1) (num 1))), (6, (mul (t 3) (t 3)))], (add (add (t 2) (mul (mul
    (num 3) (t 3)) (t 1))) (mul (div (num 3) (num 8)) (t 6)))⟩

/-- `P_4_0_Deriv` (ass_leg_function.cc:765-771). -/
def P_4_0_Deriv : Prog :=
⟨[(1, (mul x x))], (add (mul (mul (num 10) (t 1)) x) (mul (mul (div (num 15) (num 2)) (sub (t 1) (num 1))) x))⟩

/-- `P_4_1` (ass_leg_function.cc:775-787). -/
def P_4_1 : Prog :=
⟨[(1, (sqrt (num 5))), (2, (mul x x)), (3, (sub (num 1) (t 2))), (4, (sqrt (t 3)))], (div (mul (mul (neg (t 1)) (t 4))
    (sub (mul (mul (num 3840) (t 2)) x) (mul (mul (num 2880) (t 3)) x))) (num 3840))⟩

/-- `P_4_1_Deriv` (ass_leg_function.cc:791-804). -/
def P_4_1_Deriv : Prog :=
⟨[(1, (sqrt (num 5))), (2, (mul x x)), (3, (sub (num 1) (t 2))), (4, (sqrt (t 3)))], (sub (div (mul (mul (div (t 1) (t
    4)) (sub (mul (mul (num 3840) (t 2)) x) (mul (mul (num 2880) (t 3)) x))) x) (num 3840)) (div (mul (mul (t 1) (t
    4)) (sub (mul (num 20160) (t 2)) (num 2880))) (num 3840)))⟩

/-- `P_4_2` (ass_leg_function.cc:808-816). -/
def P_4_2 : Prog :=
⟨[(1, (sqrt (num 10))), (2, (mul x x))], (div (mul (mul (t 1) (sub (num 1) (t 2))) (sub (mul (num 20160) (t 2)) (num
    2880))) (num 23040))⟩

/-- `P_4_2_Deriv` (ass_leg_function.cc:820-829). -/
def P_4_2_Deriv : Prog :=
⟨[(1, (sqrt (num 10))), (3, (mul x x))], (add (div (mul (mul (neg (t 1)) x) (sub (mul (num 20160) (t 3)) (num 2880)))
    (num 11520)) (mul (mul (mul (div (num 7) (num 4)) (t 1)) (sub (num 1) (t 3))) x))⟩

/-- `P_4_3` (ass_leg_function.cc:833-845). -/
def P_4_3 : Prog :=
⟨[(1, (sqrt (num 35))), (2, (mul x x)), (3, (sub (num 1) (t 2))), (4, (sqrt (t 3)))], (div (mul (mul (mul (neg (t 1))
    (t 4)) (t 3)) x) (num 4))⟩

/-- `P_4_3_Deriv` (ass_leg_function.cc:849-861). -/
def P_4_3_Deriv : Prog :=
⟨[(1, (sqrt (num 35))), (2, (mul x x)), (3, (sub (num 1) (t 2))), (4, (sqrt (t 3)))], (sub (mul (mul (mul (div (num 3)
    (num 4)) (t 1)) (t 4)) (t 2)) (div (mul (mul (t 1) (t 4)) (t 3)) (num 4)))⟩

/-- `P_4_4` (ass_leg_function.cc:865-875). -/
def P_4_4 : Prog :=
⟨[(1, (sqrt (num 70))), (2, (mul x x)), (4, (sq (sub (num 1) (t 2))))], (div (mul (t 1) (t 4)) (num 16))⟩

/-- `P_4_4_Deriv` (ass_leg_function.cc:879-887). -/
def P_4_4_Deriv : Prog :=
⟨[(1, (sqrt (num 70))), (2, (mul x x))], (div (mul (mul (neg (t 1)) (sub (num 1) (t 2))) x) (num 4))⟩

/-- The functions `P_4_m`. -/
def vals4 : List Prog := [P_4_0, P_4_1, P_4_2, P_4_3, P_4_4]

/-- The functions `P_4_m_Deriv`. -/
def ders4 : List Prog := [P_4_0_Deriv, P_4_1_Deriv, P_4_2_Deriv, P_4_3_Deriv, P_4_4_Deriv]

/-- Certificates. -/
def certs4 : List (ℕ × ℕ × ℕ) := [(1, 1, 1), (5, 1, 2), (10, 1, 6), (35, 1, 12), (70, 1, 24)]

theorem row4 : checkRow 4 0 certs4 vals4 ders4 = true := by decide +kernel

end PiBem.Legendre.Table
