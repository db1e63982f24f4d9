import Verif.Legendre.Check

/-! Generated by tools/leggen.py from source/ass_leg_function.cc: the functions `P_9_m` and `P_9_m_Deriv`. -/

namespace PiBem.Legendre.Table

open Ex

/-- `P_9_0` (ass_leg_function.cc:2074-2093). -/
def P_9_0 : Prog :=
⟨[(1, (mul x x)), (2, (mul (t 1) (t 1))), (3, (mul (t 2) (t 2))), (5, (sub (t 1) (num 1))), (6, (mul (t 1) x)), (10,
    (mul (t 5) (t 5))), (17, (mul (t 10) (t 10)))], (add (add (add (add (mul (t 3) x) (mul (mul (mul (num 18) (t 5))
    (t 2)) (t 6))) (mul (mul (mul (div (num 189) (num 4)) (t 10)) (t 2)) x)) (mul (mul (mul (div (num 105) (num 4)) (t
    10)) (t 5)) (t 6))) (mul (mul (div (num 315) (num 128)) (t 17)) x))⟩

/-- `P_9_0_Deriv` (ass_leg_function.cc:2095-2112). -/
def P_9_0_Deriv : Prog :=
⟨[(1, (mul x x)), (2, (mul (t 1) (t 1))), (3, (mul (t 2) (t 2))), (5, (sub (t 1) (num 1))), (9, (mul (t 5) (t 5))),
    (15, (mul (t 9) (t 9)))], (add (add (add (add (mul (num 45) (t 3)) (mul (mul (mul (num 315) (t 5)) (t 2)) (t 1)))
    (mul (mul (div (num 1575) (num 4)) (t 9)) (t 2))) (mul (mul (mul (div (num 1575) (num 16)) (t 9)) (t 5)) (t 1)))
    (mul (div (num 315) (num 128)) (t 15)))⟩

/-- `P_9_1` (ass_leg_function.cc:2116-2142). -/
def P_9_1 : Prog :=
⟨[(1, (sqrt (num 10))), (2, (mul x x)), (3, (sub (num 1) (t 2))), (4, (sqrt (t 3))), (6, (mul (t 2) (t 2))), (7, (mul
    (t 6) (t 6))), (9, (neg (t 3))), (13, (mul (t 9) (t 9))), (19, (mul (t 13) (t 13)))], (div (mul (mul (neg (t 1))
    (t 4)) (add (add (add (add (mul (num 8360755200) (t 7)) (mul (mul (mul (num 58525286400) (t 9)) (t 6)) (t 2)))
    (mul (mul (num 73156608000) (t 13)) (t 6))) (mul (mul (mul (num 18289152000) (t 13)) (t 9)) (t 2))) (mul (num
    457228800) (t 19)))) (num 5573836800))⟩

/-- `P_9_1_Deriv` (ass_leg_function.cc:2146-2180). -/
def P_9_1_Deriv : Prog :=
⟨[(1, (sqrt (num 10))), (2, (mul x x)), (3, (sub (num 1) (t 2))), (4, (sqrt (t 3))), (7, (mul (t 2) (t 2))), (8, (mul
    (t 7) (t 7))), (10, (neg (t 3))), (14, (mul (t 10) (t 10))), (17, (mul (t 14) (t 10))), (20, (mul (t 14) (t 14))),
    (26, (mul (t 2) x))], (sub (div (mul (mul (div (t 1) (t 4)) (add (add (add (add (mul (num 8360755200) (t 8)) (mul
    (mul (mul (num 58525286400) (t 10)) (t 7)) (t 2))) (mul (mul (num 73156608000) (t 14)) (t 7))) (mul (mul (num
    18289152000) (t 17)) (t 2))) (mul (num 457228800) (t 20)))) x) (num 5573836800)) (div (mul (mul (t 1) (t 4)) (add
    (add (add (mul (mul (num 183936614400) (t 7)) (t 26)) (mul (mul (mul (num 643778150400) (t 10)) (t 7)) x)) (mul
    (mul (num 402361344000) (t 14)) (t 26))) (mul (mul (num 40236134400) (t 17)) x))) (num 5573836800)))⟩

/-- `P_9_2` (ass_leg_function.cc:2184-2205). -/
def P_9_2 : Prog :=
⟨[(1, (sqrt (num 55))), (2, (mul x x)), (3, (sub (num 1) (t 2))), (5, (mul (t 2) x)), (6, (mul (t 2) (t 2))), (9, (neg
    (t 3))), (13, (mul (t 9) (t 9)))], (div (mul (mul (t 1) (t 3)) (add (add (add (mul (mul (num 183936614400) (t 6))
    (t 5)) (mul (mul (mul (num 643778150400) (t 9)) (t 6)) x)) (mul (mul (num 402361344000) (t 13)) (t 5))) (mul (mul
    (mul (num 40236134400) (t 13)) (t 9)) x))) (num 122624409600))⟩

/-- `P_9_2_Deriv` (ass_leg_function.cc:2209-2234). -/
def P_9_2_Deriv : Prog :=
⟨[(1, (sqrt (num 55))), (3, (mul x x)), (4, (mul (t 3) x)), (5, (mul (t 3) (t 3))), (8, (sub (t 3) (num 1))), (12,
    (mul (t 8) (t 8))), (15, (mul (t 12) (t 8)))], (sub (div (mul (mul (neg (t 1)) x) (add (add (add (mul (mul (num
    183936614400) (t 5)) (t 4)) (mul (mul (mul (num 643778150400) (t 8)) (t 5)) x)) (mul (mul (num 402361344000) (t
    12)) (t 4))) (mul (mul (num 40236134400) (t 15)) x))) (num 61312204800)) (div (mul (mul (t 1) (t 8)) (add (add
    (add (mul (mul (num 2575112601600) (t 5)) (t 3)) (mul (mul (num 4828336128000) (t 8)) (t 5))) (mul (mul (num
    1448500838400) (t 12)) (t 3))) (mul (num 40236134400) (t 15)))) (num 122624409600)))⟩

/-- `P_9_3` (ass_leg_function.cc:2238-2259). -/
def P_9_3 : Prog :=
⟨[(1, (sqrt (num 1155))), (2, (mul x x)), (3, (sub (num 1) (t 2))), (4, (sqrt (t 3))), (7, (mul (t 2) (t 2))), (10,
    (neg (t 3))), (13, (mul (t 10) (t 10)))], (div (mul (mul (mul (neg (t 1)) (t 4)) (t 3)) (add (add (add (mul (mul
    (num 2575112601600) (t 7)) (t 2)) (mul (mul (num 4828336128000) (t 10)) (t 7))) (mul (mul (num 1448500838400) (t
    13)) (t 2))) (mul (mul (num 40236134400) (t 13)) (t 10)))) (num 5150225203200))⟩

/-- `P_9_3_Deriv` (ass_leg_function.cc:2263-2288). -/
def P_9_3_Deriv : Prog :=
⟨[(1, (sqrt (num 1155))), (2, (mul x x)), (3, (sub (num 1) (t 2))), (4, (sqrt (t 3))), (6, (mul (t 2) (t 2))), (9,
    (neg (t 3))), (12, (mul (t 9) (t 9)))], (sub (div (mul (mul (mul (t 1) (t 4)) (add (add (add (mul (mul (num
    2575112601600) (t 6)) (t 2)) (mul (mul (num 4828336128000) (t 9)) (t 6))) (mul (mul (num 1448500838400) (t 12)) (t
    2))) (mul (mul (num 40236134400) (t 12)) (t 9)))) x) (num 1716741734400)) (div (mul (mul (mul (t 1) (t 4)) (t 3))
    (add (add (mul (mul (num 25107347865600) (t 6)) x) (mul (mul (mul (num 25107347865600) (t 9)) (t 2)) x)) (mul (mul
    (num 3138418483200) (t 12)) x))) (num 5150225203200)))⟩

/-- `P_9_4` (ass_leg_function.cc:2292-2313). -/
def P_9_4 : Prog :=
⟨[(1, (sqrt (num 10010))), (2, (mul x x)), (3, (sub (num 1) (t 2))), (4, (mul (t 3) (t 3))), (6, (mul (t 2) (t 2))),
    (9, (neg (t 3))), (13, (mul (t 9) (t 9)))], (div (mul (mul (t 1) (t 4)) (add (add (mul (mul (num 25107347865600)
    (t 6)) x) (mul (mul (mul (num 25107347865600) (t 9)) (t 2)) x)) (mul (mul (num 3138418483200) (t 13)) x))) (num
    133905855283200))⟩

/-- `P_9_4_Deriv` (ass_leg_function.cc:2317-2342). -/
def P_9_4_Deriv : Prog :=
⟨[(1, (sqrt (num 10010))), (2, (mul x x)), (3, (sub (num 1) (t 2))), (5, (mul (t 2) (t 2))), (8, (neg (t 3))), (12,
    (mul (t 8) (t 8))), (19, (mul (t 3) (t 3)))], (add (div (mul (mul (mul (neg (t 1)) (t 3)) (add (add (mul (mul (num
    25107347865600) (t 5)) x) (mul (mul (mul (num 25107347865600) (t 8)) (t 2)) x)) (mul (mul (num 3138418483200) (t
    12)) x))) x) (num 33476463820800)) (div (mul (mul (t 1) (t 19)) (add (add (mul (num 175751435059200) (t 5)) (mul
    (mul (num 87875717529600) (t 2)) (t 8))) (mul (num 3138418483200) (t 12)))) (num 133905855283200)))⟩

/-- `P_9_5` (ass_leg_function.cc:2346-2369). -/
def P_9_5 : Prog :=
⟨[(1, (sqrt (num 143))), (2, (mul x x)), (3, (sub (num 1) (t 2))), (4, (mul (t 3) (t 3))), (5, (sqrt (t 3))), (8, (mul
    (t 2) (t 2))), (10, (neg (t 3))), (13, (mul (t 10) (t 10)))], (div (mul (mul (mul (neg (t 1)) (t 5)) (t 4)) (add
    (add (mul (num 175751435059200) (t 8)) (mul (mul (num 87875717529600) (t 10)) (t 2))) (mul (num 3138418483200) (t
    13)))) (num 133905855283200))⟩

/-- `P_9_5_Deriv` (ass_leg_function.cc:2373-2399). -/
def P_9_5_Deriv : Prog :=
⟨[(1, (sqrt (num 143))), (2, (mul x x)), (3, (sub (num 1) (t 2))), (4, (sqrt (t 3))), (7, (mul (t 2) (t 2))), (9, (neg
    (t 3))), (12, (mul (t 9) (t 9))), (18, (mul (t 3) (t 3)))], (sub (div (mul (mul (mul (mul (t 1) (t 4)) (t 3)) (add
    (add (mul (num 175751435059200) (t 7)) (mul (mul (num 87875717529600) (t 9)) (t 2))) (mul (num 3138418483200) (t
    12)))) x) (num 26781171056640)) (div (mul (mul (mul (t 1) (t 4)) (t 18)) (add (mul (mul (num 878757175296000) (t
    2)) x) (mul (mul (num 188305108992000) (t 9)) x))) (num 133905855283200)))⟩

/-- `P_9_6` (ass_leg_function.cc:2403-2417). -/
def P_9_6 : Prog :=
⟨[(1, (sqrt (num 2145))), (2, (mul x x)), (3, (sub (num 1) (t 2))), (4, (mul (t 3) (t 3)))], (div (mul (mul (mul (t 1)
    (t 4)) (t 3)) (sub (mul (mul (num 878757175296000) (t 2)) x) (mul (mul (num 188305108992000) (t 3)) x))) (num
    4017175658496000))⟩

/-- `P_9_6_Deriv` (ass_leg_function.cc:2421-2437). -/
def P_9_6_Deriv : Prog :=
⟨[(1, (sqrt (num 2145))), (2, (mul x x)), (3, (sub (num 1) (t 2))), (4, (mul (t 3) (t 3)))], (add (div (mul (mul (mul
    (neg (t 1)) (t 4)) (sub (mul (mul (num 878757175296000) (t 2)) x) (mul (mul (num 188305108992000) (t 3)) x))) x)
    (num 669529276416000)) (div (mul (mul (mul (t 1) (t 4)) (t 3)) (sub (mul (num 3201186852864000) (t 2)) (num
    188305108992000))) (num 4017175658496000)))⟩

/-- `P_9_7` (ass_leg_function.cc:2441-2457). -/
def P_9_7 : Prog :=
⟨[(1, (sqrt (num 715))), (2, (mul x x)), (3, (sub (num 1) (t 2))), (4, (mul (t 3) (t 3))), (6, (sqrt (t 3)))], (div
    (mul (mul (mul (mul (neg (t 1)) (t 6)) (t 4)) (t 3)) (sub (mul (num 3201186852864000) (t 2)) (num
    188305108992000))) (num 16068702633984000))⟩

/-- `P_9_7_Deriv` (ass_leg_function.cc:2461-2477). -/
def P_9_7_Deriv : Prog :=
⟨[(1, (sqrt (num 715))), (2, (mul x x)), (3, (sub (num 1) (t 2))), (4, (mul (t 3) (t 3))), (5, (sqrt (t 3)))], (sub
    (div (mul (mul (mul (mul (t 1) (t 5)) (t 4)) (sub (mul (num 3201186852864000) (t 2)) (num 188305108992000))) x)
    (num 2295528947712000)) (mul (mul (mul (mul (mul (div (num 51) (num 128)) (t 1)) (t 5)) (t 4)) (t 3)) x))⟩

/-- `P_9_8` (ass_leg_function.cc:2481-2493). -/
def P_9_8 : Prog :=
⟨[(1, (sqrt (num 24310))), (2, (mul x x)), (4, (sq (sub (num 1) (t 2)))), (5, (mul (t 4) (t 4)))], (mul (mul (mul (div
    (num 3) (num 256)) (t 1)) (t 5)) x)⟩

/-- `P_9_8_Deriv` (ass_leg_function.cc:2497-2511). -/
def P_9_8_Deriv : Prog :=
⟨[(1, (sqrt (num 24310))), (2, (mul x x)), (3, (sub (num 1) (t 2))), (4, (mul (t 3) (t 3))), (9, (mul (t 4) (t 4)))],
    (add (mul (mul (mul (mul (div (neg (num 3)) (num 32)) (t 1)) (t 4)) (t 3)) (t 2)) (mul (mul (div (num 3) (num
    256)) (t 1)) (t 9)))⟩

/-- `P_9_9` (ass_leg_function.cc:2515-2531). -/
def P_9_9 : Prog :=
⟨[(1, (sqrt (num 12155))), (2, (mul x x)), (3, (sub (num 1) (t 2))), (4, (mul (t 3) (t 3))), (5, (mul (t 4) (t 4))),
    (6, (sqrt (t 3)))], (div (mul (mul (neg (t 1)) (t 6)) (t 5)) (num 256))⟩

/-- `P_9_9_Deriv` (ass_leg_function.cc:2535-2549). -/
def P_9_9_Deriv : Prog :=
⟨[(1, (sqrt (num 12155))), (2, (mul x x)), (3, (sub (num 1) (t 2))), (4, (mul (t 3) (t 3))), (6, (sqrt (t 3)))], (mul
    (mul (mul (mul (mul (div (num 9) (num 256)) (t 1)) (t 6)) (t 4)) (t 3)) x)⟩

/-- The functions `P_9_m`. -/
def vals9 : List Prog := [P_9_0, P_9_1, P_9_2, P_9_3, P_9_4, P_9_5, P_9_6, P_9_7, P_9_8, P_9_9]

/-- The functions `P_9_m_Deriv`. -/
def ders9 : List Prog := [P_9_0_Deriv, P_9_1_Deriv, P_9_2_Deriv, P_9_3_Deriv, P_9_4_Deriv, P_9_5_Deriv, P_9_6_Deriv,
    P_9_7_Deriv, P_9_8_Deriv, P_9_9_Deriv]

/-- Certificates. -/
def certs9 : List (ℕ × ℕ × ℕ) := [(1, 1, 1), (10, 1, 3), (55, 1, 12), (1155, 1, 24), (10010, 1, 72), (143, 1, 5040),
    (2145, 1, 10080), (715, 1, 120960), (24310, 1, 120960), (12155, 1, 725760)]

theorem row9 : checkRow 9 0 certs9 vals9 ders9 = true := by decide +kernel

end PiBem.Legendre.Table
