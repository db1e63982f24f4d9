import Verif.Legendre.Check

/-! Generated by tools/leggen.py from source/ass_leg_function.cc: the functions `P_10_m` and `P_10_m_Deriv`. -/

namespace PiBem.Legendre.Table

open Ex

/-- `P_10_0` (ass_leg_function.cc:2551-2569). -/
def P_10_0 : Prog :=
⟨[(1, (mul x x)), (2, (mul (t 1) (t 1))), (3, (mul (t 2) (t 2))), (5, (sub (t 1) (num 1))), (8, (mul (t 5) (t 5))),
    (15, (mul (t 8) (t 8)))], (add (add (add (add (add (mul (t 3) (t 1)) (mul (mul (div (num 45) (num 2)) (t 3)) (t
    5))) (mul (mul (mul (div (num 315) (num 4)) (t 8)) (t 2)) (t 1))) (mul (mul (mul (div (num 525) (num 8)) (t 8)) (t
    5)) (t 2))) (mul (mul (div (num 1575) (num 128)) (t 15)) (t 1))) (mul (mul (div (num 63) (num 256)) (t 15)) (t
    5)))⟩

/-- `P_10_0_Deriv` (ass_leg_function.cc:2571-2591). -/
def P_10_0_Deriv : Prog :=
⟨[(1, (mul x x)), (2, (mul (t 1) (t 1))), (3, (mul (t 2) (t 2))), (6, (sub (t 1) (num 1))), (7, (mul (t 1) x)), (11,
    (mul (t 6) (t 6))), (18, (mul (t 11) (t 11)))], (add (add (add (add (mul (mul (num 55) (t 3)) x) (mul (mul (mul
    (num 495) (t 6)) (t 2)) (t 7))) (mul (mul (mul (div (num 3465) (num 4)) (t 11)) (t 2)) x)) (mul (mul (mul (div
    (num 5775) (num 16)) (t 11)) (t 6)) (t 7))) (mul (mul (div (num 3465) (num 128)) (t 18)) x))⟩

/-- `P_10_1` (ass_leg_function.cc:2595-2623). -/
def P_10_1 : Prog :=
⟨[(1, (sqrt (num 110))), (2, (mul x x)), (3, (sub (num 1) (t 2))), (4, (sqrt (t 3))), (6, (mul (t 2) (t 2))), (7, (mul
    (t 6) (t 6))), (10, (neg (t 3))), (11, (mul (t 2) x)), (15, (mul (t 10) (t 10))), (22, (mul (t 15) (t 15)))], (div
    (mul (mul (neg (t 1)) (t 4)) (add (add (add (add (mul (mul (num 204374016000) (t 7)) x) (mul (mul (mul (num
    1839366144000) (t 10)) (t 6)) (t 11))) (mul (mul (mul (num 3218890752000) (t 15)) (t 6)) x)) (mul (mul (mul (num
    1341204480000) (t 15)) (t 10)) (t 11))) (mul (mul (num 100590336000) (t 22)) x))) (num 408748032000))⟩

/-- `P_10_1_Deriv` (ass_leg_function.cc:2627-2662). -/
def P_10_1_Deriv : Prog :=
⟨[(1, (sqrt (num 110))), (2, (mul x x)), (3, (sub (num 1) (t 2))), (4, (sqrt (t 3))), (7, (mul (t 2) (t 2))), (8, (mul
    (t 7) (t 7))), (11, (neg (t 3))), (12, (mul (t 2) x)), (16, (mul (t 11) (t 11))), (20, (mul (t 16) (t 11))), (23,
    (mul (t 16) (t 16)))], (sub (div (mul (mul (div (t 1) (t 4)) (add (add (add (add (mul (mul (num 204374016000) (t
    8)) x) (mul (mul (mul (num 1839366144000) (t 11)) (t 7)) (t 12))) (mul (mul (mul (num 3218890752000) (t 16)) (t
    7)) x)) (mul (mul (num 1341204480000) (t 20)) (t 12))) (mul (mul (num 100590336000) (t 23)) x))) x) (num
    408748032000)) (div (mul (mul (t 1) (t 4)) (add (add (add (add (mul (num 5518098432000) (t 8)) (mul (mul (mul (num
    25751126016000) (t 11)) (t 7)) (t 2))) (mul (mul (num 24141680640000) (t 16)) (t 7))) (mul (mul (num
    4828336128000) (t 20)) (t 2))) (mul (num 100590336000) (t 23)))) (num 408748032000)))⟩

/-- `P_10_2` (ass_leg_function.cc:2666-2690). -/
def P_10_2 : Prog :=
⟨[(1, (sqrt (num 330))), (2, (mul x x)), (3, (sub (num 1) (t 2))), (5, (mul (t 2) (t 2))), (6, (mul (t 5) (t 5))), (8,
    (neg (t 3))), (12, (mul (t 8) (t 8))), (18, (mul (t 12) (t 12)))], (div (mul (mul (t 1) (t 3)) (add (add (add (add
    (mul (num 5518098432000) (t 6)) (mul (mul (mul (num 25751126016000) (t 8)) (t 5)) (t 2))) (mul (mul (num
    24141680640000) (t 12)) (t 5))) (mul (mul (mul (num 4828336128000) (t 12)) (t 8)) (t 2))) (mul (num 100590336000)
    (t 18)))) (num 7357464576000))⟩

/-- `P_10_2_Deriv` (ass_leg_function.cc:2694-2725). -/
def P_10_2_Deriv : Prog :=
⟨[(1, (sqrt (num 330))), (3, (mul x x)), (4, (mul (t 3) (t 3))), (5, (mul (t 4) (t 4))), (7, (sub (t 3) (num 1))),
    (11, (mul (t 7) (t 7))), (14, (mul (t 11) (t 7))), (17, (mul (t 11) (t 11))), (24, (mul (t 3) x))], (sub (div (mul
    (mul (neg (t 1)) x) (add (add (add (add (mul (num 5518098432000) (t 5)) (mul (mul (mul (num 25751126016000) (t 7))
    (t 4)) (t 3))) (mul (mul (num 24141680640000) (t 11)) (t 4))) (mul (mul (num 4828336128000) (t 14)) (t 3))) (mul
    (num 100590336000) (t 17)))) (num 3678732288000)) (div (mul (mul (t 1) (t 7)) (add (add (add (mul (mul (num
    95647039488000) (t 4)) (t 24)) (mul (mul (mul (num 251073478656000) (t 7)) (t 4)) x)) (mul (mul (num
    125536739328000) (t 11)) (t 24))) (mul (mul (num 10461394944000) (t 14)) x))) (num 7357464576000)))⟩

/-- `P_10_3` (ass_leg_function.cc:2729-2753). -/
def P_10_3 : Prog :=
⟨[(1, (sqrt (num 2145))), (2, (mul x x)), (3, (sub (num 1) (t 2))), (4, (sqrt (t 3))), (7, (mul (t 2) x)), (8, (mul (t
    2) (t 2))), (11, (neg (t 3))), (15, (mul (t 11) (t 11)))], (div (mul (mul (mul (neg (t 1)) (t 4)) (t 3)) (add (add
    (add (mul (mul (num 95647039488000) (t 8)) (t 7)) (mul (mul (mul (num 251073478656000) (t 11)) (t 8)) x)) (mul
    (mul (num 125536739328000) (t 15)) (t 7))) (mul (mul (mul (num 10461394944000) (t 15)) (t 11)) x))) (num
    191294078976000))⟩

/-- `P_10_3_Deriv` (ass_leg_function.cc:2757-2787). -/
def P_10_3_Deriv : Prog :=
⟨[(1, (sqrt (num 2145))), (2, (mul x x)), (3, (sub (num 1) (t 2))), (4, (sqrt (t 3))), (6, (mul (t 2) x)), (7, (mul (t
    2) (t 2))), (10, (neg (t 3))), (14, (mul (t 10) (t 10))), (17, (mul (t 14) (t 10)))], (sub (div (mul (mul (mul (t
    1) (t 4)) (add (add (add (mul (mul (num 95647039488000) (t 7)) (t 6)) (mul (mul (mul (num 251073478656000) (t 10))
    (t 7)) x)) (mul (mul (num 125536739328000) (t 14)) (t 6))) (mul (mul (num 10461394944000) (t 17)) x))) x) (num
    63764692992000)) (div (mul (mul (mul (t 1) (t 4)) (t 3)) (add (add (add (mul (mul (num 1171676233728000) (t 7)) (t
    2)) (mul (mul (num 1757514350592000) (t 10)) (t 7))) (mul (mul (num 439378587648000) (t 14)) (t 2))) (mul (num
    10461394944000) (t 17)))) (num 191294078976000)))⟩

/-- `P_10_4` (ass_leg_function.cc:2791-2812). -/
def P_10_4 : Prog :=
⟨[(1, (sqrt (num 4290))), (2, (mul x x)), (3, (sub (num 1) (t 2))), (4, (mul (t 3) (t 3))), (6, (mul (t 2) (t 2))),
    (9, (neg (t 3))), (12, (mul (t 9) (t 9)))], (div (mul (mul (t 1) (t 4)) (add (add (add (mul (mul (num
    1171676233728000) (t 6)) (t 2)) (mul (mul (num 1757514350592000) (t 9)) (t 6))) (mul (mul (num 439378587648000) (t
    12)) (t 2))) (mul (mul (num 10461394944000) (t 12)) (t 9)))) (num 2678117105664000))⟩

/-- `P_10_4_Deriv` (ass_leg_function.cc:2816-2842). -/
def P_10_4_Deriv : Prog :=
⟨[(1, (sqrt (num 4290))), (2, (mul x x)), (3, (sub (num 1) (t 2))), (5, (mul (t 2) (t 2))), (8, (neg (t 3))), (11,
    (mul (t 8) (t 8))), (20, (mul (t 3) (t 3)))], (add (div (mul (mul (mul (neg (t 1)) (t 3)) (add (add (add (mul (mul
    (num 1171676233728000) (t 5)) (t 2)) (mul (mul (num 1757514350592000) (t 5)) (t 8))) (mul (mul (num
    439378587648000) (t 11)) (t 2))) (mul (mul (num 10461394944000) (t 11)) (t 8)))) x) (num 669529276416000)) (div
    (mul (mul (t 1) (t 20)) (add (add (mul (mul (num 10545086103552000) (t 5)) x) (mul (mul (mul (num
    8787571752960000) (t 8)) (t 2)) x)) (mul (mul (num 941525544960000) (t 11)) x))) (num 2678117105664000)))⟩

/-- `P_10_5` (ass_leg_function.cc:2846-2870). -/
def P_10_5 : Prog :=
⟨[(1, (sqrt (num 429))), (2, (mul x x)), (3, (sub (num 1) (t 2))), (4, (mul (t 3) (t 3))), (5, (sqrt (t 3))), (8, (mul
    (t 2) (t 2))), (11, (neg (t 3))), (15, (mul (t 11) (t 11)))], (div (mul (mul (mul (neg (t 1)) (t 5)) (t 4)) (add
    (add (mul (mul (num 10545086103552000) (t 8)) x) (mul (mul (mul (num 8787571752960000) (t 11)) (t 2)) x)) (mul
    (mul (num 941525544960000) (t 15)) x))) (num 8034351316992000))⟩

/-- `P_10_5_Deriv` (ass_leg_function.cc:2874-2902). -/
def P_10_5_Deriv : Prog :=
⟨[(1, (sqrt (num 429))), (2, (mul x x)), (3, (sub (num 1) (t 2))), (4, (sqrt (t 3))), (7, (mul (t 2) (t 2))), (10,
    (neg (t 3))), (14, (mul (t 10) (t 10))), (21, (mul (t 3) (t 3)))], (sub (div (mul (mul (mul (mul (t 1) (t 4)) (t
    3)) (add (add (mul (mul (num 10545086103552000) (t 7)) x) (mul (mul (mul (num 8787571752960000) (t 10)) (t 2)) x))
    (mul (mul (num 941525544960000) (t 14)) x))) x) (num 1606870263398400)) (div (mul (mul (mul (t 1) (t 4)) (t 21))
    (add (add (mul (num 70300574023680000) (t 7)) (mul (mul (num 30128817438720000) (t 10)) (t 2))) (mul (num
    941525544960000) (t 14)))) (num 8034351316992000)))⟩

/-- `P_10_6` (ass_leg_function.cc:2906-2927). -/
def P_10_6 : Prog :=
⟨[(1, (sqrt (num 2145))), (2, (mul x x)), (3, (sub (num 1) (t 2))), (4, (mul (t 3) (t 3))), (7, (mul (t 2) (t 2))),
    (9, (neg (t 3))), (12, (mul (t 9) (t 9)))], (div (mul (mul (mul (t 1) (t 4)) (t 3)) (add (add (mul (num
    70300574023680000) (t 7)) (mul (mul (num 30128817438720000) (t 9)) (t 2))) (mul (num 941525544960000) (t 12))))
    (num 160687026339840000))⟩

/-- `P_10_6_Deriv` (ass_leg_function.cc:2931-2956). -/
def P_10_6_Deriv : Prog :=
⟨[(1, (sqrt (num 2145))), (2, (mul x x)), (3, (sub (num 1) (t 2))), (4, (mul (t 3) (t 3))), (6, (mul (t 2) (t 2))),
    (8, (neg (t 3))), (11, (mul (t 8) (t 8)))], (add (div (mul (mul (mul (neg (t 1)) (t 4)) (add (add (mul (num
    70300574023680000) (t 6)) (mul (mul (num 30128817438720000) (t 2)) (t 8))) (mul (num 941525544960000) (t 11)))) x)
    (num 26781171056640000)) (div (mul (mul (mul (t 1) (t 4)) (t 3)) (add (mul (mul (num 341459930972160000) (t 2)) x)
    (mul (mul (num 64023737057280000) (t 8)) x))) (num 160687026339840000)))⟩

/-- `P_10_7` (ass_leg_function.cc:2960-2976). -/
def P_10_7 : Prog :=
⟨[(1, (sqrt (num 36465))), (2, (mul x x)), (3, (sub (num 1) (t 2))), (4, (mul (t 3) (t 3))), (6, (sqrt (t 3)))], (div
    (mul (mul (mul (mul (neg (t 1)) (t 6)) (t 4)) (t 3)) (sub (mul (mul (num 341459930972160000) (t 2)) x) (mul (mul
    (num 64023737057280000) (t 3)) x))) (num 5463358895554560000))⟩

/-- `P_10_7_Deriv` (ass_leg_function.cc:2980-3000). -/
def P_10_7_Deriv : Prog :=
⟨[(1, (sqrt (num 36465))), (2, (mul x x)), (3, (sub (num 1) (t 2))), (4, (mul (t 3) (t 3))), (5, (sqrt (t 3)))], (sub
    (div (mul (mul (mul (mul (t 1) (t 5)) (t 4)) (sub (mul (mul (num 341459930972160000) (t 2)) x) (mul (mul (num
    64023737057280000) (t 3)) x))) x) (num 780479842222080000)) (div (mul (mul (mul (mul (t 1) (t 5)) (t 4)) (t 3))
    (add (neg (num 64023737057280000)) (mul (num 1216451004088320000) (t 2)))) (num 5463358895554560000)))⟩

/-- `P_10_8` (ass_leg_function.cc:3004-3017). -/
def P_10_8 : Prog :=
⟨[(1, (sqrt (num 24310))), (2, (mul x x)), (4, (sq (sub (num 1) (t 2)))), (5, (mul (t 4) (t 4)))], (div (mul (mul (t
    1) (t 5)) (add (neg (num 64023737057280000)) (mul (num 1216451004088320000) (t 2)))) (num 32780153373327360000))⟩

/-- `P_10_8_Deriv` (ass_leg_function.cc:3021-3038). -/
def P_10_8_Deriv : Prog :=
⟨[(1, (sqrt (num 24310))), (2, (mul x x)), (3, (sub (num 1) (t 2))), (4, (mul (t 3) (t 3))), (12, (mul (t 4) (t 4)))],
    (add (div (mul (mul (mul (mul (neg (t 1)) (t 4)) (t 3)) (add (neg (num 64023737057280000)) (mul (num
    1216451004088320000) (t 2)))) x) (num 4097519171665920000)) (mul (mul (mul (div (num 19) (num 256)) (t 1)) (t 12))
    x))⟩

/-- `P_10_9` (ass_leg_function.cc:3042-3058). -/
def P_10_9 : Prog :=
⟨[(1, (sqrt (num 230945))), (2, (mul x x)), (3, (sub (num 1) (t 2))), (4, (mul (t 3) (t 3))), (5, (mul (t 4) (t 4))),
    (6, (sqrt (t 3)))], (div (mul (mul (mul (neg (t 1)) (t 6)) (t 5)) x) (num 256))⟩

/-- `P_10_9_Deriv` (ass_leg_function.cc:3062-3078). -/
def P_10_9_Deriv : Prog :=
⟨[(1, (sqrt (num 230945))), (2, (mul x x)), (3, (sub (num 1) (t 2))), (4, (mul (t 3) (t 3))), (6, (sqrt (t 3))), (11,
    (mul (t 4) (t 4)))], (sub (mul (mul (mul (mul (mul (div (num 9) (num 256)) (t 1)) (t 6)) (t 4)) (t 3)) (t 2)) (div
    (mul (mul (t 1) (t 6)) (t 11)) (num 256)))⟩

/-- `P_10_10` (ass_leg_function.cc:3082-3096). -/
def P_10_10 : Prog :=
⟨[(1, (sqrt (num 46189))), (2, (mul x x)), (3, (sub (num 1) (t 2))), (4, (mul (t 3) (t 3))), (5, (mul (t 4) (t 4)))],
    (div (mul (mul (t 1) (t 5)) (t 3)) (num 512))⟩

/-- `P_10_10_Deriv` (ass_leg_function.cc:3100-3112). -/
def P_10_10_Deriv : Prog :=
⟨[(1, (sqrt (num 46189))), (2, (mul x x)), (4, (sq (sub (num 1) (t 2)))), (5, (mul (t 4) (t 4)))], (mul (mul (mul (div
    (neg (num 5)) (num 256)) (t 1)) (t 5)) x)⟩

/-- The functions `P_10_m`. -/
def vals10 : List Prog := [P_10_0, P_10_1, P_10_2, P_10_3, P_10_4, P_10_5, P_10_6, P_10_7, P_10_8, P_10_9, P_10_10]

/-- The functions `P_10_m_Deriv`. -/
def ders10 : List Prog := [P_10_0_Deriv, P_10_1_Deriv, P_10_2_Deriv, P_10_3_Deriv, P_10_4_Deriv, P_10_5_Deriv,
    P_10_6_Deriv, P_10_7_Deriv, P_10_8_Deriv, P_10_9_Deriv, P_10_10_Deriv]

/-- Certificates. -/
def certs10 : List (ℕ × ℕ × ℕ) := [(1, 1, 1), (110, 1, 1), (330, 1, 6), (2145, 1, 24), (4290, 1, 168), (429, 1, 5040),
    (2145, 1, 20160), (36465, 1, 40320), (24310, 1, 362880), (230945, 1, 725760), (46189, 1, 7257600)]

theorem row10 : checkRow 10 0 certs10 vals10 ders10 = true := by decide +kernel

end PiBem.Legendre.Table
