import Verif.Legendre.Check

/-! Generated by tools/leggen.py from source/ass_leg_function.cc: the functions `P_15_m` and `P_15_m_Deriv`. -/

namespace PiBem.Legendre.Table

open Ex

/-- `P_15_0` (ass_leg_function.cc:6340-6369). -/
def P_15_0 : Prog :=
⟨[(1, (mul x x)), (2, (mul (t 1) x)), (3, (mul (t 1) (t 1))), (4, (mul (t 3) (t 2))), (5, (mul (t 3) (t 3))), (7, (sub
    (t 1) (num 1))), (8, (mul (t 3) x)), (12, (mul (t 7) (t 7))), (16, (mul (t 12) (t 7))), (20, (mul (t 12) (t
    12)))], (add (add (add (add (add (add (add (mul (t 5) (t 4)) (mul (mul (mul (div (num 105) (num 2)) (t 7)) (t 5))
    (t 8))) (mul (mul (mul (div (num 4095) (num 8)) (t 12)) (t 5)) (t 2))) (mul (mul (mul (div (num 25025) (num 16))
    (t 16)) (t 5)) x)) (mul (mul (div (num 225225) (num 128)) (t 4)) (t 20))) (mul (mul (mul (div (num 189189) (num
    256)) (t 20)) (t 7)) (t 8))) (mul (mul (mul (div (num 105105) (num 1024)) (t 20)) (t 12)) (t 2))) (mul (mul (mul
    (div (num 6435) (num 2048)) (t 20)) (t 16)) x))⟩

/-- `P_15_0_Deriv` (ass_leg_function.cc:6371-6395). -/
def P_15_0_Deriv : Prog :=
⟨[(1, (mul x x)), (2, (mul (t 1) (t 1))), (3, (mul (t 2) (t 1))), (4, (mul (t 2) (t 2))), (7, (sub (t 1) (num 1))),
    (11, (mul (t 7) (t 7))), (15, (mul (t 11) (t 7))), (18, (mul (t 11) (t 11)))], (add (add (add (add (add (add (add
    (mul (mul (num 120) (t 4)) (t 3)) (mul (mul (mul (num 2730) (t 7)) (t 4)) (t 2))) (mul (mul (mul (num 15015) (t
    11)) (t 4)) (t 1))) (mul (mul (div (num 225225) (num 8)) (t 15)) (t 4))) (mul (mul (div (num 315315) (num 16)) (t
    18)) (t 3))) (mul (mul (mul (div (num 315315) (num 64)) (t 18)) (t 7)) (t 2))) (mul (mul (mul (div (num 45045)
    (num 128)) (t 18)) (t 11)) (t 1))) (mul (mul (div (num 6435) (num 2048)) (t 15)) (t 18)))⟩

/-- `P_15_1` (ass_leg_function.cc:6399-6434). -/
def P_15_1 : Prog :=
⟨[(1, (sqrt (num 15))), (2, (mul x x)), (3, (sub (num 1) (t 2))), (4, (sqrt (t 3))), (6, (mul (t 2) (t 2))), (7, (mul
    (t 6) (t 2))), (8, (mul (t 6) (t 6))), (11, (neg (t 3))), (15, (mul (t 11) (t 11))), (19, (mul (t 15) (t 11))),
    (22, (mul (t 15) (t 15)))], (div (mul (mul (neg (t 1)) (t 4)) (add (add (add (add (add (add (add (mul (mul (num
    5141984842874880000) (t 8)) (t 7)) (mul (mul (mul (num 116980155175403520000) (t 11)) (t 8)) (t 6))) (mul (mul
    (mul (num 643390853464719360000) (t 15)) (t 8)) (t 2))) (mul (mul (num 1206357850246348800000) (t 19)) (t 8)))
    (mul (mul (num 844450495172444160000) (t 22)) (t 7))) (mul (mul (mul (num 211112623793111040000) (t 22)) (t 11))
    (t 6))) (mul (mul (mul (num 15079473128079360000) (t 22)) (t 15)) (t 2))) (mul (mul (num 134638152929280000) (t
    22)) (t 19)))) (num 2570992421437440000))⟩

/-- `P_15_1_Deriv` (ass_leg_function.cc:6438-6490). -/
def P_15_1_Deriv : Prog :=
⟨[(1, (sqrt (num 15))), (2, (mul x x)), (3, (sub (num 1) (t 2))), (4, (sqrt (t 3))), (7, (mul (t 2) (t 2))), (8, (mul
    (t 7) (t 2))), (9, (mul (t 7) (t 7))), (12, (neg (t 3))), (16, (mul (t 12) (t 12))), (20, (mul (t 16) (t 12))),
    (23, (mul (t 16) (t 16))), (26, (mul (t 12) (t 23))), (29, (mul (t 23) (t 16))), (38, (mul (t 7) x)), (41, (mul (t
    2) x))], (sub (div (mul (mul (div (t 1) (t 4)) (add (add (add (add (add (add (add (mul (mul (num
    5141984842874880000) (t 8)) (t 9)) (mul (mul (mul (num 116980155175403520000) (t 12)) (t 9)) (t 7))) (mul (mul
    (mul (num 643390853464719360000) (t 16)) (t 9)) (t 2))) (mul (mul (num 1206357850246348800000) (t 20)) (t 9)))
    (mul (mul (num 844450495172444160000) (t 23)) (t 8))) (mul (mul (num 211112623793111040000) (t 26)) (t 7))) (mul
    (mul (num 15079473128079360000) (t 29)) (t 2))) (mul (mul (num 134638152929280000) (t 23)) (t 20)))) x) (num
    2570992421437440000)) (div (mul (mul (t 1) (t 4)) (add (add (add (add (add (add (mul (mul (num
    305948098151055360000) (t 9)) (t 38)) (mul (mul (mul (num 3977325275963719680000) (t 12)) (t 9)) (t 41))) (mul
    (mul (mul (num 13672055636125286400000) (t 16)) (t 9)) x)) (mul (mul (mul (num 16406466763350343680000) (t 20)) (t
    7)) (t 41))) (mul (mul (num 7177829208965775360000) (t 23)) (t 38))) (mul (mul (num 1025404172709396480000) (t
    26)) (t 41))) (mul (mul (num 32043880397168640000) (t 29)) x))) (num 2570992421437440000)))⟩

/-- `P_15_2` (ass_leg_function.cc:6494-6526). -/
def P_15_2 : Prog :=
⟨[(1, (sqrt (num 3570))), (2, (mul x x)), (3, (sub (num 1) (t 2))), (5, (mul (t 2) (t 2))), (6, (mul (t 5) x)), (7,
    (mul (t 5) (t 5))), (10, (neg (t 3))), (11, (mul (t 2) x)), (15, (mul (t 10) (t 10))), (23, (mul (t 15) (t 15)))],
    (div (mul (mul (t 1) (t 3)) (add (add (add (add (add (add (mul (mul (num 305948098151055360000) (t 7)) (t 6)) (mul
    (mul (mul (num 3977325275963719680000) (t 10)) (t 7)) (t 11))) (mul (mul (mul (num 13672055636125286400000) (t
    15)) (t 7)) x)) (mul (mul (mul (mul (num 16406466763350343680000) (t 15)) (t 10)) (t 5)) (t 11))) (mul (mul (num
    7177829208965775360000) (t 23)) (t 6))) (mul (mul (mul (num 1025404172709396480000) (t 23)) (t 10)) (t 11))) (mul
    (mul (mul (num 32043880397168640000) (t 23)) (t 15)) x))) (num 611896196302110720000))⟩

/-- `P_15_2_Deriv` (ass_leg_function.cc:6530-6575). -/
def P_15_2_Deriv : Prog :=
⟨[(1, (sqrt (num 3570))), (3, (mul x x)), (4, (mul (t 3) (t 3))), (5, (mul (t 4) x)), (6, (mul (t 4) (t 4))), (9, (sub
    (t 3) (num 1))), (10, (mul (t 3) x)), (14, (mul (t 9) (t 9))), (18, (mul (t 14) (t 9))), (22, (mul (t 14) (t
    14))), (25, (mul (t 22) (t 9))), (28, (mul (t 22) (t 14)))], (sub (div (mul (mul (neg (t 1)) x) (add (add (add
    (add (add (add (mul (mul (num 305948098151055360000) (t 6)) (t 5)) (mul (mul (mul (num 3977325275963719680000) (t
    9)) (t 6)) (t 10))) (mul (mul (mul (num 13672055636125286400000) (t 14)) (t 6)) x)) (mul (mul (mul (num
    16406466763350343680000) (t 18)) (t 4)) (t 10))) (mul (mul (num 7177829208965775360000) (t 22)) (t 5))) (mul (mul
    (num 1025404172709396480000) (t 25)) (t 10))) (mul (mul (num 32043880397168640000) (t 28)) x))) (num
    305948098151055360000)) (div (mul (mul (t 1) (t 9)) (add (add (add (add (add (add (mul (mul (num
    11931975827891159040000) (t 6)) (t 4)) (mul (mul (mul (num 98438800580102062080000) (t 9)) (t 6)) (t 3))) (mul
    (mul (num 221487301305229639680000) (t 14)) (t 6))) (mul (mul (mul (num 172267901015178608640000) (t 18)) (t 4))
    (t 3))) (mul (mul (num 46143187771922841600000) (t 22)) (t 4))) (mul (mul (num 3460739082894213120000) (t 25)) (t
    3))) (mul (num 32043880397168640000) (t 28)))) (num 611896196302110720000)))⟩

/-- `P_15_3` (ass_leg_function.cc:6579-6609). -/
def P_15_3 : Prog :=
⟨[(1, (sqrt (num 23205))), (2, (mul x x)), (3, (sub (num 1) (t 2))), (4, (sqrt (t 3))), (7, (mul (t 2) (t 2))), (8,
    (mul (t 7) (t 7))), (11, (neg (t 3))), (15, (mul (t 11) (t 11))), (22, (mul (t 15) (t 15)))], (div (mul (mul (mul
    (neg (t 1)) (t 4)) (t 3)) (add (add (add (add (add (add (mul (mul (num 11931975827891159040000) (t 8)) (t 7)) (mul
    (mul (mul (num 98438800580102062080000) (t 11)) (t 8)) (t 2))) (mul (mul (num 221487301305229639680000) (t 15)) (t
    8))) (mul (mul (mul (mul (num 172267901015178608640000) (t 15)) (t 11)) (t 7)) (t 2))) (mul (mul (num
    46143187771922841600000) (t 22)) (t 7))) (mul (mul (mul (num 3460739082894213120000) (t 22)) (t 11)) (t 2))) (mul
    (mul (num 32043880397168640000) (t 22)) (t 15)))) (num 23863951655782318080000))⟩

/-- `P_15_3_Deriv` (ass_leg_function.cc:6613-6657). -/
def P_15_3_Deriv : Prog :=
⟨[(1, (sqrt (num 23205))), (2, (mul x x)), (3, (sub (num 1) (t 2))), (4, (sqrt (t 3))), (6, (mul (t 2) (t 2))), (7,
    (mul (t 6) (t 6))), (10, (neg (t 3))), (14, (mul (t 10) (t 10))), (17, (mul (t 14) (t 10))), (21, (mul (t 14) (t
    14))), (24, (mul (t 10) (t 21))), (35, (mul (t 2) x))], (sub (div (mul (mul (mul (t 1) (t 4)) (add (add (add (add
    (add (add (mul (mul (num 11931975827891159040000) (t 7)) (t 6)) (mul (mul (mul (num 98438800580102062080000) (t
    10)) (t 7)) (t 2))) (mul (mul (num 221487301305229639680000) (t 14)) (t 7))) (mul (mul (mul (num
    172267901015178608640000) (t 17)) (t 6)) (t 2))) (mul (mul (num 46143187771922841600000) (t 21)) (t 6))) (mul (mul
    (num 3460739082894213120000) (t 24)) (t 2))) (mul (mul (num 32043880397168640000) (t 21)) (t 14)))) x) (num
    7954650551927439360000)) (div (mul (mul (mul (t 1) (t 4)) (t 3)) (add (add (add (add (add (mul (mul (num
    340061311094898032640000) (t 7)) (t 35)) (mul (mul (mul (num 1870337211021939179520000) (t 10)) (t 7)) x)) (mul
    (mul (mul (num 2805505816532908769280000) (t 14)) (t 6)) (t 35))) (mul (mul (mul (num 1402752908266454384640000)
    (t 17)) (t 6)) x)) (mul (mul (num 219180141916633497600000) (t 21)) (t 35))) (mul (mul (num
    7306004730554449920000) (t 24)) x))) (num 23863951655782318080000)))⟩

/-- `P_15_4` (ass_leg_function.cc:6661-6692). -/
def P_15_4 : Prog :=
⟨[(1, (sqrt (num 146965))), (2, (mul x x)), (3, (sub (num 1) (t 2))), (4, (mul (t 3) (t 3))), (6, (mul (t 2) x)), (7,
    (mul (t 2) (t 2))), (8, (mul (t 7) (t 7))), (11, (neg (t 3))), (15, (mul (t 11) (t 11))), (23, (mul (t 15) (t
    15)))], (div (mul (mul (t 1) (t 4)) (add (add (add (add (add (mul (mul (num 340061311094898032640000) (t 6)) (t
    8)) (mul (mul (mul (num 1870337211021939179520000) (t 11)) (t 8)) x)) (mul (mul (mul (num
    2805505816532908769280000) (t 15)) (t 7)) (t 6))) (mul (mul (mul (mul (num 1402752908266454384640000) (t 15)) (t
    11)) (t 7)) x)) (mul (mul (num 219180141916633497600000) (t 23)) (t 6))) (mul (mul (mul (num
    7306004730554449920000) (t 23)) (t 11)) x))) (num 906830162919728087040000))⟩

/-- `P_15_4_Deriv` (ass_leg_function.cc:6696-6739). -/
def P_15_4_Deriv : Prog :=
⟨[(1, (sqrt (num 146965))), (2, (mul x x)), (3, (sub (num 1) (t 2))), (5, (mul (t 2) x)), (6, (mul (t 2) (t 2))), (7,
    (mul (t 6) (t 6))), (10, (neg (t 3))), (14, (mul (t 10) (t 10))), (18, (mul (t 14) (t 10))), (22, (mul (t 14) (t
    14))), (25, (mul (t 22) (t 10))), (32, (mul (t 3) (t 3)))], (add (div (mul (mul (mul (neg (t 1)) (t 3)) (add (add
    (add (add (add (mul (mul (num 340061311094898032640000) (t 7)) (t 5)) (mul (mul (mul (num
    1870337211021939179520000) (t 10)) (t 7)) x)) (mul (mul (mul (num 2805505816532908769280000) (t 14)) (t 6)) (t
    5))) (mul (mul (mul (num 1402752908266454384640000) (t 18)) (t 6)) x)) (mul (mul (num 219180141916633497600000) (t
    22)) (t 5))) (mul (mul (num 7306004730554449920000) (t 25)) x))) x) (num 226707540729932021760000)) (div (mul (mul
    (t 1) (t 32)) (add (add (add (add (add (mul (mul (num 7481348844087756718080000) (t 7)) (t 2)) (mul (mul (num
    28055058165329087692800000) (t 10)) (t 7))) (mul (mul (mul (num 28055058165329087692800000) (t 14)) (t 6)) (t 2)))
    (mul (mul (num 8767205676665339904000000) (t 18)) (t 6))) (mul (mul (num 730600473055444992000000) (t 22)) (t 2)))
    (mul (num 7306004730554449920000) (t 25)))) (num 906830162919728087040000)))⟩

/-- `P_15_5` (ass_leg_function.cc:6743-6774). -/
def P_15_5 : Prog :=
⟨[(1, (sqrt (num 323323))), (2, (mul x x)), (3, (sub (num 1) (t 2))), (4, (mul (t 3) (t 3))), (5, (sqrt (t 3))), (8,
    (mul (t 2) (t 2))), (9, (mul (t 8) (t 8))), (12, (neg (t 3))), (15, (mul (t 12) (t 12))), (22, (mul (t 15) (t
    15)))], (div (mul (mul (mul (neg (t 1)) (t 5)) (t 4)) (add (add (add (add (add (mul (mul (num
    7481348844087756718080000) (t 9)) (t 2)) (mul (mul (num 28055058165329087692800000) (t 12)) (t 9))) (mul (mul (mul
    (num 28055058165329087692800000) (t 15)) (t 8)) (t 2))) (mul (mul (mul (num 8767205676665339904000000) (t 15)) (t
    12)) (t 8))) (mul (mul (num 730600473055444992000000) (t 22)) (t 2))) (mul (mul (num 7306004730554449920000) (t
    22)) (t 12)))) (num 19950263584234017914880000))⟩

/-- `P_15_5_Deriv` (ass_leg_function.cc:6778-6820). -/
def P_15_5_Deriv : Prog :=
⟨[(1, (sqrt (num 323323))), (2, (mul x x)), (3, (sub (num 1) (t 2))), (4, (sqrt (t 3))), (7, (mul (t 2) (t 2))), (8,
    (mul (t 7) (t 7))), (11, (neg (t 3))), (14, (mul (t 11) (t 11))), (18, (mul (t 14) (t 11))), (21, (mul (t 14) (t
    14))), (30, (mul (t 3) (t 3))), (35, (mul (t 2) x))], (sub (div (mul (mul (mul (mul (t 1) (t 4)) (t 3)) (add (add
    (add (add (add (mul (mul (num 7481348844087756718080000) (t 8)) (t 2)) (mul (mul (num 28055058165329087692800000)
    (t 8)) (t 11))) (mul (mul (mul (num 28055058165329087692800000) (t 14)) (t 7)) (t 2))) (mul (mul (num
    8767205676665339904000000) (t 18)) (t 7))) (mul (mul (num 730600473055444992000000) (t 21)) (t 2))) (mul (mul (num
    7306004730554449920000) (t 21)) (t 11)))) x) (num 3990052716846803582976000)) (div (mul (mul (mul (t 1) (t 4)) (t
    30)) (add (add (add (add (mul (mul (num 130923604771535742566400000) (t 8)) x) (mul (mul (mul (num
    336660697983949052313600000) (t 11)) (t 7)) (t 35))) (mul (mul (mul (num 220933583051966565580800000) (t 14)) (t
    7)) x)) (mul (mul (num 40913626491104919552000000) (t 18)) (t 35))) (mul (mul (num 1534260993416434483200000) (t
    21)) x))) (num 19950263584234017914880000)))⟩

/-- `P_15_6` (ass_leg_function.cc:6824-6854). -/
def P_15_6 : Prog :=
⟨[(1, (sqrt (num 1385670))), (2, (mul x x)), (3, (sub (num 1) (t 2))), (4, (mul (t 3) (t 3))), (7, (mul (t 2) (t 2))),
    (8, (mul (t 7) (t 7))), (11, (neg (t 3))), (12, (mul (t 2) x)), (16, (mul (t 11) (t 11))), (23, (mul (t 16) (t
    16)))], (div (mul (mul (mul (t 1) (t 4)) (t 3)) (add (add (add (add (mul (mul (num 130923604771535742566400000) (t
    8)) x) (mul (mul (mul (num 336660697983949052313600000) (t 11)) (t 7)) (t 12))) (mul (mul (mul (num
    220933583051966565580800000) (t 16)) (t 7)) x)) (mul (mul (mul (num 40913626491104919552000000) (t 16)) (t 11)) (t
    12))) (mul (mul (num 1534260993416434483200000) (t 23)) x))) (num 598507907527020537446400000))⟩

/-- `P_15_6_Deriv` (ass_leg_function.cc:6858-6897). -/
def P_15_6_Deriv : Prog :=
⟨[(1, (sqrt (num 1385670))), (2, (mul x x)), (3, (sub (num 1) (t 2))), (4, (mul (t 3) (t 3))), (6, (mul (t 2) (t 2))),
    (7, (mul (t 6) (t 6))), (10, (neg (t 3))), (11, (mul (t 2) x)), (15, (mul (t 10) (t 10))), (19, (mul (t 15) (t
    10))), (22, (mul (t 15) (t 15)))], (add (div (mul (mul (mul (neg (t 1)) (t 4)) (add (add (add (add (mul (mul (num
    130923604771535742566400000) (t 7)) x) (mul (mul (mul (num 336660697983949052313600000) (t 10)) (t 6)) (t 11)))
    (mul (mul (mul (num 220933583051966565580800000) (t 15)) (t 6)) x)) (mul (mul (num 40913626491104919552000000) (t
    19)) (t 11))) (mul (mul (num 1534260993416434483200000) (t 22)) x))) x) (num 99751317921170089574400000)) (div
    (mul (mul (mul (t 1) (t 4)) (t 3)) (add (add (add (add (mul (num 1851633838911719787724800000) (t 7)) (mul (mul
    (mul (num 3240359218095509628518400000) (t 10)) (t 6)) (t 2))) (mul (mul (num 1350149674206462345216000000) (t
    15)) (t 6))) (mul (mul (num 135014967420646234521600000) (t 19)) (t 2))) (mul (num 1534260993416434483200000) (t
    22)))) (num 598507907527020537446400000)))⟩

/-- `P_15_7` (ass_leg_function.cc:6901-6931). -/
def P_15_7 : Prog :=
⟨[(1, (sqrt (num 62985))), (2, (mul x x)), (3, (sub (num 1) (t 2))), (4, (mul (t 3) (t 3))), (6, (sqrt (t 3))), (9,
    (mul (t 2) (t 2))), (10, (mul (t 9) (t 9))), (12, (neg (t 3))), (16, (mul (t 12) (t 12))), (22, (mul (t 16) (t
    16)))], (div (mul (mul (mul (mul (neg (t 1)) (t 6)) (t 4)) (t 3)) (add (add (add (add (mul (num
    1851633838911719787724800000) (t 10)) (mul (mul (mul (num 3240359218095509628518400000) (t 12)) (t 9)) (t 2)))
    (mul (mul (num 1350149674206462345216000000) (t 16)) (t 9))) (mul (mul (mul (num 135014967420646234521600000) (t
    16)) (t 12)) (t 2))) (mul (num 1534260993416434483200000) (t 22)))) (num 1795523722581061612339200000))⟩

/-- `P_15_7_Deriv` (ass_leg_function.cc:6935-6975). -/
def P_15_7_Deriv : Prog :=
⟨[(1, (sqrt (num 62985))), (2, (mul x x)), (3, (sub (num 1) (t 2))), (4, (mul (t 3) (t 3))), (5, (sqrt (t 3))), (8,
    (mul (t 2) (t 2))), (9, (mul (t 8) (t 8))), (11, (neg (t 3))), (15, (mul (t 11) (t 11))), (18, (mul (t 15) (t
    11))), (21, (mul (t 15) (t 15))), (30, (mul (t 2) x))], (sub (div (mul (mul (mul (mul (t 1) (t 5)) (t 4)) (add
    (add (add (add (mul (num 1851633838911719787724800000) (t 9)) (mul (mul (mul (num 3240359218095509628518400000) (t
    11)) (t 8)) (t 2))) (mul (mul (num 1350149674206462345216000000) (t 8)) (t 15))) (mul (mul (num
    135014967420646234521600000) (t 18)) (t 2))) (mul (num 1534260993416434483200000) (t 21)))) x) (num
    256503388940151658905600000)) (div (mul (mul (mul (mul (t 1) (t 5)) (t 4)) (t 3)) (add (add (add (mul (mul (num
    21293789147484777558835200000) (t 30)) (t 8)) (mul (mul (mul (num 24842754005398907151974400000) (t 11)) (t 8))
    x)) (mul (mul (num 6210688501349726787993600000) (t 15)) (t 30))) (mul (mul (num 282304022788623944908800000) (t
    18)) x))) (num 1795523722581061612339200000)))⟩

/-- `P_15_8` (ass_leg_function.cc:6979-7006). -/
def P_15_8 : Prog :=
⟨[(1, (sqrt (num 2897310))), (2, (mul x x)), (3, (sub (num 1) (t 2))), (4, (mul (t 3) (t 3))), (5, (mul (t 4) (t 4))),
    (7, (mul (t 2) x)), (8, (mul (t 2) (t 2))), (11, (neg (t 3))), (15, (mul (t 11) (t 11)))], (div (mul (mul (t 1) (t
    5)) (add (add (add (mul (mul (num 21293789147484777558835200000) (t 8)) (t 7)) (mul (mul (mul (num
    24842754005398907151974400000) (t 11)) (t 8)) x)) (mul (mul (num 6210688501349726787993600000) (t 15)) (t 7)))
    (mul (mul (mul (num 282304022788623944908800000) (t 15)) (t 11)) x))) (num 165188182477457668335206400000))⟩

/-- `P_15_8_Deriv` (ass_leg_function.cc:7010-7045). -/
def P_15_8_Deriv : Prog :=
⟨[(1, (sqrt (num 2897310))), (2, (mul x x)), (3, (sub (num 1) (t 2))), (4, (mul (t 3) (t 3))), (7, (mul (t 2) x)), (8,
    (mul (t 2) (t 2))), (11, (neg (t 3))), (15, (mul (t 11) (t 11))), (18, (mul (t 15) (t 11))), (25, (mul (t 4) (t
    4)))], (add (div (mul (mul (mul (mul (neg (t 1)) (t 4)) (t 3)) (add (add (add (mul (mul (num
    21293789147484777558835200000) (t 8)) (t 7)) (mul (mul (mul (num 24842754005398907151974400000) (t 11)) (t 8)) x))
    (mul (mul (num 6210688501349726787993600000) (t 7)) (t 15))) (mul (mul (num 282304022788623944908800000) (t 18))
    x))) x) (num 20648522809682208541900800000)) (div (mul (mul (t 1) (t 25)) (add (add (add (mul (mul (num
    198742032043191257215795200000) (t 8)) (t 2)) (mul (mul (num 149056524032393442911846400000) (t 11)) (t 8))) (mul
    (mul (num 20325889640780924033433600000) (t 15)) (t 2))) (mul (num 282304022788623944908800000) (t 18)))) (num
    165188182477457668335206400000)))⟩

/-- `P_15_9` (ass_leg_function.cc:7049-7076). -/
def P_15_9 : Prog :=
⟨[(1, (sqrt (num 3380195))), (2, (mul x x)), (3, (sub (num 1) (t 2))), (4, (mul (t 3) (t 3))), (5, (mul (t 4) (t 4))),
    (6, (sqrt (t 3))), (9, (mul (t 2) (t 2))), (12, (neg (t 3))), (15, (mul (t 12) (t 12)))], (div (mul (mul (mul (neg
    (t 1)) (t 6)) (t 5)) (add (add (add (mul (mul (num 198742032043191257215795200000) (t 9)) (t 2)) (mul (mul (num
    149056524032393442911846400000) (t 12)) (t 9))) (mul (mul (num 20325889640780924033433600000) (t 15)) (t 2))) (mul
    (mul (num 282304022788623944908800000) (t 15)) (t 12)))) (num 2312634554684407356692889600000))⟩

/-- `P_15_9_Deriv` (ass_leg_function.cc:7080-7112). -/
def P_15_9_Deriv : Prog :=
⟨[(1, (sqrt (num 3380195))), (2, (mul x x)), (3, (sub (num 1) (t 2))), (4, (mul (t 3) (t 3))), (6, (sqrt (t 3))), (9,
    (mul (t 2) (t 2))), (12, (neg (t 3))), (15, (mul (t 12) (t 12))), (24, (mul (t 4) (t 4)))], (sub (div (mul (mul
    (mul (mul (mul (t 1) (t 6)) (t 4)) (t 3)) (add (add (add (mul (mul (num 198742032043191257215795200000) (t 9)) (t
    2)) (mul (mul (num 149056524032393442911846400000) (t 12)) (t 9))) (mul (mul (num 20325889640780924033433600000)
    (t 2)) (t 15))) (mul (mul (num 282304022788623944908800000) (t 12)) (t 15)))) x) (num
    256959394964934150743654400000)) (div (mul (mul (mul (t 1) (t 6)) (t 24)) (add (add (mul (mul (num
    1490565240323934429118464000000) (t 9)) x) (mul (mul (mul (num 677529654692697467781120000000) (t 12)) (t 2)) x))
    (mul (mul (num 42345603418293591736320000000) (t 15)) x))) (num 2312634554684407356692889600000)))⟩

/-- `P_15_10` (ass_leg_function.cc:7116-7140). -/
def P_15_10 : Prog :=
⟨[(1, (sqrt (num 20281170))), (2, (mul x x)), (3, (sub (num 1) (t 2))), (4, (mul (t 3) (t 3))), (5, (mul (t 4) (t
    4))), (8, (mul (t 2) (t 2))), (11, (neg (t 3))), (15, (mul (t 11) (t 11)))], (div (mul (mul (mul (t 1) (t 5)) (t
    3)) (add (add (mul (mul (num 1490565240323934429118464000000) (t 8)) x) (mul (mul (mul (num
    677529654692697467781120000000) (t 11)) (t 2)) x)) (mul (mul (num 42345603418293591736320000000) (t 15)) x))) (num
    69379036640532220700786688000000))⟩

/-- `P_15_10_Deriv` (ass_leg_function.cc:7144-7173). -/
def P_15_10_Deriv : Prog :=
⟨[(1, (sqrt (num 20281170))), (2, (mul x x)), (3, (sub (num 1) (t 2))), (4, (mul (t 3) (t 3))), (5, (mul (t 4) (t
    4))), (7, (mul (t 2) (t 2))), (10, (neg (t 3))), (14, (mul (t 10) (t 10)))], (add (div (mul (mul (mul (neg (t 1))
    (t 5)) (add (add (mul (mul (num 1490565240323934429118464000000) (t 7)) x) (mul (mul (mul (num
    677529654692697467781120000000) (t 10)) (t 2)) x)) (mul (mul (num 42345603418293591736320000000) (t 14)) x))) x)
    (num 6937903664053222070078668800000)) (div (mul (mul (mul (t 1) (t 5)) (t 3)) (add (add (mul (num
    8807885511005067081154560000000) (t 7)) (mul (mul (num 2201971377751266770288640000000) (t 10)) (t 2))) (mul (num
    42345603418293591736320000000) (t 14)))) (num 69379036640532220700786688000000)))⟩

/-- `P_15_11` (ass_leg_function.cc:7177-7203). -/
def P_15_11 : Prog :=
⟨[(1, (sqrt (num 156009))), (2, (mul x x)), (3, (sub (num 1) (t 2))), (4, (mul (t 3) (t 3))), (5, (mul (t 4) (t 4))),
    (7, (sqrt (t 3))), (10, (mul (t 2) (t 2))), (12, (neg (t 3))), (15, (mul (t 12) (t 12)))], (div (mul (mul (mul
    (mul (neg (t 1)) (t 7)) (t 5)) (t 3)) (add (add (mul (num 8807885511005067081154560000000) (t 10)) (mul (mul (num
    2201971377751266770288640000000) (t 12)) (t 2))) (mul (num 42345603418293591736320000000) (t 15)))) (num
    69379036640532220700786688000000))⟩

/-- `P_15_11_Deriv` (ass_leg_function.cc:7207-7237). -/
def P_15_11_Deriv : Prog :=
⟨[(1, (sqrt (num 156009))), (2, (mul x x)), (3, (sub (num 1) (t 2))), (4, (mul (t 3) (t 3))), (5, (mul (t 4) (t 4))),
    (6, (sqrt (t 3))), (9, (mul (t 2) (t 2))), (11, (neg (t 3))), (14, (mul (t 11) (t 11)))], (sub (div (mul (mul (mul
    (mul (t 1) (t 6)) (t 5)) (add (add (mul (num 8807885511005067081154560000000) (t 9)) (mul (mul (num
    2201971377751266770288640000000) (t 11)) (t 2))) (mul (num 42345603418293591736320000000) (t 14)))) x) (num
    6307185149139292790980608000000)) (div (mul (mul (mul (mul (t 1) (t 6)) (t 5)) (t 3)) (add (mul (mul (num
    39635484799522801865195520000000) (t 2)) x) (mul (mul (num 4573325169175707907522560000000) (t 11)) x))) (num
    69379036640532220700786688000000)))⟩

/-- `P_15_12` (ass_leg_function.cc:7241-7258). -/
def P_15_12 : Prog :=
⟨[(1, (sqrt (num 52003))), (2, (mul x x)), (3, (sub (num 1) (t 2))), (4, (mul (t 3) (t 3))), (5, (mul (t 4) (t 4)))],
    (div (mul (mul (mul (t 1) (t 5)) (t 4)) (sub (mul (mul (num 39635484799522801865195520000000) (t 2)) x) (mul (mul
    (num 4573325169175707907522560000000) (t 3)) x))) (num 416274219843193324204720128000000))⟩

/-- `P_15_12_Deriv` (ass_leg_function.cc:7262-7283). -/
def P_15_12_Deriv : Prog :=
⟨[(1, (sqrt (num 52003))), (2, (mul x x)), (3, (sub (num 1) (t 2))), (4, (mul (t 3) (t 3))), (5, (mul (t 4) (t 4)))],
    (add (div (mul (mul (mul (mul (neg (t 1)) (t 5)) (t 3)) (sub (mul (mul (num 39635484799522801865195520000000) (t
    2)) x) (mul (mul (num 4573325169175707907522560000000) (t 3)) x))) x) (num 34689518320266110350393344000000)) (div
    (mul (mul (mul (t 1) (t 5)) (t 4)) (sub (mul (num 132626429906095529318154240000000) (t 2)) (num
    4573325169175707907522560000000))) (num 416274219843193324204720128000000)))⟩

/-- `P_15_13` (ass_leg_function.cc:7287-7306). -/
def P_15_13 : Prog :=
⟨[(1, (sqrt (num 22287))), (2, (mul x x)), (3, (sub (num 1) (t 2))), (4, (mul (t 3) (t 3))), (5, (mul (t 4) (t 4))),
    (7, (sqrt (t 3)))], (div (mul (mul (mul (mul (neg (t 1)) (t 7)) (t 5)) (t 4)) (sub (mul (num
    132626429906095529318154240000000) (t 2)) (num 4573325169175707907522560000000))) (num
    2497645319059159945228320768000000))⟩

/-- `P_15_13_Deriv` (ass_leg_function.cc:7310-7330). -/
def P_15_13_Deriv : Prog :=
⟨[(1, (sqrt (num 22287))), (2, (mul x x)), (3, (sub (num 1) (t 2))), (4, (mul (t 3) (t 3))), (5, (mul (t 4) (t 4))),
    (7, (sqrt (t 3)))], (sub (div (mul (mul (mul (mul (mul (t 1) (t 7)) (t 5)) (t 3)) (sub (mul (num
    132626429906095529318154240000000) (t 2)) (num 4573325169175707907522560000000))) x) (num
    192126563004550765017563136000000)) (mul (mul (mul (mul (mul (div (num 435) (num 4096)) (t 1)) (t 7)) (t 5)) (t
    4)) x))⟩

/-- `P_15_14` (ass_leg_function.cc:7334-7348). -/
def P_15_14 : Prog :=
⟨[(1, (sqrt (num 1292646))), (2, (mul x x)), (3, (sub (num 1) (t 2))), (4, (mul (t 3) (t 3))), (6, (mul (t 4) (t
    4)))], (mul (mul (mul (mul (mul (div (num 15) (num 8192)) (t 1)) (t 6)) (t 4)) (t 3)) x)⟩

/-- `P_15_14_Deriv` (ass_leg_function.cc:7352-7367). -/
def P_15_14_Deriv : Prog :=
⟨[(1, (sqrt (num 1292646))), (2, (mul x x)), (3, (sub (num 1) (t 2))), (4, (mul (t 3) (t 3))), (5, (mul (t 4) (t
    4)))], (add (mul (mul (mul (mul (div (neg (num 105)) (num 4096)) (t 1)) (t 5)) (t 4)) (t 2)) (mul (mul (mul (mul
    (div (num 15) (num 8192)) (t 1)) (t 5)) (t 4)) (t 3)))⟩

/-- `P_15_15` (ass_leg_function.cc:7371-7387). -/
def P_15_15 : Prog :=
⟨[(1, (sqrt (num 1077205))), (2, (mul x x)), (3, (sub (num 1) (t 2))), (4, (mul (t 3) (t 3))), (6, (mul (t 4) (t 4))),
    (8, (sqrt (t 3)))], (mul (mul (mul (mul (mul (div (neg (num 3)) (num 8192)) (t 1)) (t 8)) (t 6)) (t 4)) (t 3))⟩

/-- `P_15_15_Deriv` (ass_leg_function.cc:7391-7407). -/
def P_15_15_Deriv : Prog :=
⟨[(1, (sqrt (num 1077205))), (2, (mul x x)), (3, (sub (num 1) (t 2))), (4, (mul (t 3) (t 3))), (5, (mul (t 4) (t 4))),
    (7, (sqrt (t 3)))], (mul (mul (mul (mul (mul (div (num 45) (num 8192)) (t 1)) (t 7)) (t 5)) (t 4)) x)⟩

/-- The functions `P_15_m`. -/
def vals15 : List Prog := [P_15_0, P_15_1, P_15_2, P_15_3, P_15_4, P_15_5, P_15_6, P_15_7, P_15_8, P_15_9, P_15_10,
    P_15_11, P_15_12, P_15_13, P_15_14, P_15_15]

/-- The functions `P_15_m_Deriv`. -/
def ders15 : List Prog := [P_15_0_Deriv, P_15_1_Deriv, P_15_2_Deriv, P_15_3_Deriv, P_15_4_Deriv, P_15_5_Deriv,
    P_15_6_Deriv, P_15_7_Deriv, P_15_8_Deriv, P_15_9_Deriv, P_15_10_Deriv, P_15_11_Deriv, P_15_12_Deriv,
    P_15_13_Deriv, P_15_14_Deriv, P_15_15_Deriv]

/-- Certificates. -/
def certs15 : List (ℕ × ℕ × ℕ) := [(1, 1, 1), (15, 1, 4), (3570, 1, 4), (23205, 1, 24), (146965, 1, 144), (323323, 1,
    1440), (1385670, 1, 10080), (62985, 1, 665280), (2897310, 1, 1330560), (3380195, 1, 15966720), (20281170, 1,
    79833600), (156009, 1, 10378368000), (52003, 1, 186810624000), (22287, 1, 2615348736000), (1292646, 1,
    2615348736000), (1077205, 1, 15692092416000)]

theorem row15 : checkRow 15 0 certs15 vals15 ders15 = true := by decide +kernel

end PiBem.Legendre.Table
