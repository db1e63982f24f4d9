import Verif.Legendre.Check

/-! Generated by tools/leggen.py from source/ass_leg_function.cc: the functions `P_13_m` and `P_13_m_Deriv`. -/

namespace PiBem.Legendre.Table

open Ex

/-- `P_13_0` (ass_leg_function.cc:4526-4549). -/
def P_13_0 : Prog :=
⟨[(1, (mul x x)), (2, (mul (t 1) (t 1))), (3, (mul (t 2) x)), (4, (mul (t 2) (t 2))), (6, (sub (t 1) (num 1))), (7,
    (mul (t 1) x)), (11, (mul (t 6) (t 6))), (19, (mul (t 11) (t 11)))], (add (add (add (add (add (add (mul (t 4) (t
    3)) (mul (mul (mul (num 39) (t 6)) (t 4)) (t 7))) (mul (mul (mul (div (num 2145) (num 8)) (t 11)) (t 4)) x)) (mul
    (mul (mul (mul (div (num 2145) (num 4)) (t 11)) (t 6)) (t 2)) (t 7))) (mul (mul (div (num 45045) (num 128)) (t
    19)) (t 3))) (mul (mul (mul (div (num 9009) (num 128)) (t 19)) (t 6)) (t 7))) (mul (mul (mul (div (num 3003) (num
    1024)) (t 19)) (t 11)) x))⟩

/-- `P_13_0_Deriv` (ass_leg_function.cc:4551-4571). -/
def P_13_0_Deriv : Prog :=
⟨[(1, (mul x x)), (2, (mul (t 1) (t 1))), (3, (mul (t 2) (t 2))), (6, (sub (t 1) (num 1))), (10, (mul (t 6) (t 6))),
    (17, (mul (t 10) (t 10)))], (add (add (add (add (add (add (mul (mul (num 91) (t 3)) (t 2)) (mul (mul (mul (div
    (num 3003) (num 2)) (t 6)) (t 3)) (t 1))) (mul (mul (div (num 45045) (num 8)) (t 10)) (t 3))) (mul (mul (mul (mul
    (div (num 105105) (num 16)) (t 10)) (t 6)) (t 2)) (t 1))) (mul (mul (div (num 315315) (num 128)) (t 17)) (t 2)))
    (mul (mul (mul (div (num 63063) (num 256)) (t 1)) (t 6)) (t 17))) (mul (mul (div (num 3003) (num 1024)) (t 17)) (t
    10)))⟩

/-- `P_13_1` (ass_leg_function.cc:4575-4605). -/
def P_13_1 : Prog :=
⟨[(1, (sqrt (num 182))), (2, (mul x x)), (3, (sub (num 1) (t 2))), (4, (sqrt (t 3))), (6, (mul (t 2) (t 2))), (7, (mul
    (t 6) (t 6))), (10, (neg (t 3))), (14, (mul (t 10) (t 10))), (21, (mul (t 14) (t 14)))], (div (mul (mul (neg (t
    1)) (t 4)) (add (add (add (add (add (add (mul (mul (num 4642069649817600) (t 7)) (t 6)) (mul (mul (mul (num
    76594149221990400) (t 10)) (t 7)) (t 2))) (mul (mul (num 287228059582464000) (t 14)) (t 7))) (mul (mul (mul (mul
    (num 335099402846208000) (t 14)) (t 10)) (t 6)) (t 2))) (mul (mul (num 125662276067328000) (t 21)) (t 6))) (mul
    (mul (mul (num 12566227606732800) (t 21)) (t 10)) (t 2))) (mul (mul (num 149597947699200) (t 21)) (t 14)))) (num
    9284139299635200))⟩

/-- `P_13_1_Deriv` (ass_leg_function.cc:4609-4652). -/
def P_13_1_Deriv : Prog :=
⟨[(1, (sqrt (num 182))), (2, (mul x x)), (3, (sub (num 1) (t 2))), (4, (sqrt (t 3))), (7, (mul (t 2) (t 2))), (8, (mul
    (t 7) (t 7))), (11, (neg (t 3))), (15, (mul (t 11) (t 11))), (18, (mul (t 15) (t 11))), (22, (mul (t 15) (t 15))),
    (25, (mul (t 22) (t 11))), (34, (mul (t 2) x))], (sub (div (mul (mul (div (t 1) (t 4)) (add (add (add (add (add
    (add (mul (mul (num 4642069649817600) (t 8)) (t 7)) (mul (mul (mul (num 76594149221990400) (t 11)) (t 8)) (t 2)))
    (mul (mul (num 287228059582464000) (t 15)) (t 8))) (mul (mul (mul (num 335099402846208000) (t 18)) (t 7)) (t 2)))
    (mul (mul (num 125662276067328000) (t 22)) (t 7))) (mul (mul (num 12566227606732800) (t 25)) (t 2))) (mul (mul
    (num 149597947699200) (t 22)) (t 15)))) x) (num 9284139299635200)) (div (mul (mul (t 1) (t 4)) (add (add (add (add
    (add (mul (mul (num 208893134241792000) (t 8)) (t 34)) (mul (mul (mul (num 1914853730549760000) (t 11)) (t 8)) x))
    (mul (mul (mul (num 4308420893736960000) (t 15)) (t 7)) (t 34))) (mul (mul (mul (num 3015894625615872000) (t 18))
    (t 7)) x)) (mul (mul (num 628311380336640000) (t 22)) (t 34))) (mul (mul (num 26927630585856000) (t 25)) x))) (num
    9284139299635200)))⟩

/-- `P_13_2` (ass_leg_function.cc:4656-4685). -/
def P_13_2 : Prog :=
⟨[(1, (sqrt (num 910))), (2, (mul x x)), (3, (sub (num 1) (t 2))), (5, (mul (t 2) x)), (6, (mul (t 2) (t 2))), (7,
    (mul (t 6) (t 6))), (10, (neg (t 3))), (14, (mul (t 10) (t 10))), (22, (mul (t 14) (t 14)))], (div (mul (mul (t 1)
    (t 3)) (add (add (add (add (add (mul (mul (num 208893134241792000) (t 7)) (t 5)) (mul (mul (mul (num
    1914853730549760000) (t 10)) (t 7)) x)) (mul (mul (mul (num 4308420893736960000) (t 14)) (t 6)) (t 5))) (mul (mul
    (mul (mul (num 3015894625615872000) (t 14)) (t 10)) (t 6)) x)) (mul (mul (num 628311380336640000) (t 22)) (t 5)))
    (mul (mul (mul (num 26927630585856000) (t 22)) (t 10)) x))) (num 278524178989056000))⟩

/-- `P_13_2_Deriv` (ass_leg_function.cc:4689-4727). -/
def P_13_2_Deriv : Prog :=
⟨[(1, (sqrt (num 910))), (3, (mul x x)), (4, (mul (t 3) x)), (5, (mul (t 3) (t 3))), (6, (mul (t 5) (t 5))), (9, (sub
    (t 3) (num 1))), (13, (mul (t 9) (t 9))), (17, (mul (t 13) (t 9))), (21, (mul (t 13) (t 13))), (24, (mul (t 21) (t
    9)))], (sub (div (mul (mul (neg (t 1)) x) (add (add (add (add (add (mul (mul (num 208893134241792000) (t 6)) (t
    4)) (mul (mul (mul (num 1914853730549760000) (t 9)) (t 6)) x)) (mul (mul (mul (num 4308420893736960000) (t 13)) (t
    5)) (t 4))) (mul (mul (mul (num 3015894625615872000) (t 17)) (t 5)) x)) (mul (mul (num 628311380336640000) (t 21))
    (t 4))) (mul (mul (num 26927630585856000) (t 24)) x))) (num 139262089494528000)) (div (mul (mul (t 1) (t 9)) (add
    (add (add (add (add (mul (mul (num 6127531937759232000) (t 6)) (t 3)) (mul (mul (num 34467367149895680000) (t 9))
    (t 6))) (mul (mul (mul (num 48254314009853952000) (t 13)) (t 5)) (t 3))) (mul (mul (num 20105964170772480000) (t
    17)) (t 5))) (mul (mul (num 2154210446868480000) (t 21)) (t 3))) (mul (num 26927630585856000) (t 24)))) (num
    278524178989056000)))⟩

/-- `P_13_3` (ass_leg_function.cc:4731-4759). -/
def P_13_3 : Prog :=
⟨[(1, (sqrt (num 10010))), (2, (mul x x)), (3, (sub (num 1) (t 2))), (4, (sqrt (t 3))), (7, (mul (t 2) (t 2))), (8,
    (mul (t 7) (t 7))), (11, (neg (t 3))), (14, (mul (t 11) (t 11))), (21, (mul (t 14) (t 14)))], (div (mul (mul (mul
    (neg (t 1)) (t 4)) (t 3)) (add (add (add (add (add (mul (mul (num 6127531937759232000) (t 8)) (t 2)) (mul (mul
    (num 34467367149895680000) (t 11)) (t 8))) (mul (mul (mul (num 48254314009853952000) (t 14)) (t 7)) (t 2))) (mul
    (mul (mul (num 20105964170772480000) (t 14)) (t 11)) (t 7))) (mul (mul (num 2154210446868480000) (t 21)) (t 2)))
    (mul (mul (num 26927630585856000) (t 21)) (t 11)))) (num 12255063875518464000))⟩

/-- `P_13_3_Deriv` (ass_leg_function.cc:4763-4803). -/
def P_13_3_Deriv : Prog :=
⟨[(1, (sqrt (num 10010))), (2, (mul x x)), (3, (sub (num 1) (t 2))), (4, (sqrt (t 3))), (6, (mul (t 2) (t 2))), (7,
    (mul (t 6) (t 6))), (10, (neg (t 3))), (13, (mul (t 10) (t 10))), (17, (mul (t 13) (t 10))), (20, (mul (t 13) (t
    13))), (33, (mul (t 2) x))], (sub (div (mul (mul (mul (t 1) (t 4)) (add (add (add (add (add (mul (mul (num
    6127531937759232000) (t 7)) (t 2)) (mul (mul (num 34467367149895680000) (t 10)) (t 7))) (mul (mul (mul (num
    48254314009853952000) (t 13)) (t 6)) (t 2))) (mul (mul (num 20105964170772480000) (t 17)) (t 6))) (mul (mul (num
    2154210446868480000) (t 20)) (t 2))) (mul (mul (num 26927630585856000) (t 20)) (t 10)))) x) (num
    4085021291839488000)) (div (mul (mul (mul (t 1) (t 4)) (t 3)) (add (add (add (add (mul (mul (num
    130210053677383680000) (t 7)) x) (mul (mul (mul (num 468756193238581248000) (t 10)) (t 6)) (t 33))) (mul (mul (mul
    (num 410161669083758592000) (t 13)) (t 6)) x)) (mul (mul (num 97657540258037760000) (t 17)) (t 33))) (mul (mul
    (num 4577697199595520000) (t 20)) x))) (num 12255063875518464000)))⟩

/-- `P_13_4` (ass_leg_function.cc:4807-4837). -/
def P_13_4 : Prog :=
⟨[(1, (sqrt (num 17017))), (2, (mul x x)), (3, (sub (num 1) (t 2))), (4, (mul (t 3) (t 3))), (6, (mul (t 2) (t 2))),
    (7, (mul (t 6) (t 6))), (10, (neg (t 3))), (11, (mul (t 2) x)), (15, (mul (t 10) (t 10))), (22, (mul (t 15) (t
    15)))], (div (mul (mul (t 1) (t 4)) (add (add (add (add (mul (mul (num 130210053677383680000) (t 7)) x) (mul (mul
    (mul (num 468756193238581248000) (t 10)) (t 6)) (t 11))) (mul (mul (mul (num 410161669083758592000) (t 15)) (t 6))
    x)) (mul (mul (mul (num 97657540258037760000) (t 15)) (t 10)) (t 11))) (mul (mul (num 4577697199595520000) (t 22))
    x))) (num 208336085883813888000))⟩

/-- `P_13_4_Deriv` (ass_leg_function.cc:4841-4880). -/
def P_13_4_Deriv : Prog :=
⟨[(1, (sqrt (num 17017))), (2, (mul x x)), (3, (sub (num 1) (t 2))), (5, (mul (t 2) (t 2))), (6, (mul (t 5) (t 5))),
    (9, (neg (t 3))), (10, (mul (t 2) x)), (14, (mul (t 9) (t 9))), (18, (mul (t 14) (t 9))), (21, (mul (t 14) (t
    14))), (28, (mul (t 3) (t 3)))], (add (div (mul (mul (mul (neg (t 1)) (t 3)) (add (add (add (add (mul (mul (num
    130210053677383680000) (t 6)) x) (mul (mul (mul (num 468756193238581248000) (t 9)) (t 5)) (t 10))) (mul (mul (mul
    (num 410161669083758592000) (t 14)) (t 5)) x)) (mul (mul (num 97657540258037760000) (t 18)) (t 10))) (mul (mul
    (num 4577697199595520000) (t 21)) x))) x) (num 52084021470953472000)) (div (mul (mul (t 1) (t 28)) (add (add (add
    (add (mul (num 2109402869573615616000) (t 6)) (mul (mul (mul (num 4921940029005103104000) (t 9)) (t 5)) (t 2)))
    (mul (mul (num 2636753586967019520000) (t 14)) (t 5))) (mul (mul (num 329594198370877440000) (t 18)) (t 2))) (mul
    (num 4577697199595520000) (t 21)))) (num 208336085883813888000)))⟩

/-- `P_13_5` (ass_leg_function.cc:4884-4914). -/
def P_13_5 : Prog :=
⟨[(1, (sqrt (num 34034))), (2, (mul x x)), (3, (sub (num 1) (t 2))), (4, (mul (t 3) (t 3))), (5, (sqrt (t 3))), (8,
    (mul (t 2) (t 2))), (9, (mul (t 8) (t 8))), (11, (neg (t 3))), (15, (mul (t 11) (t 11))), (21, (mul (t 15) (t
    15)))], (div (mul (mul (mul (neg (t 1)) (t 5)) (t 4)) (add (add (add (add (mul (num 2109402869573615616000) (t 9))
    (mul (mul (mul (num 4921940029005103104000) (t 11)) (t 8)) (t 2))) (mul (mul (num 2636753586967019520000) (t 15))
    (t 8))) (mul (mul (mul (num 329594198370877440000) (t 15)) (t 11)) (t 2))) (mul (num 4577697199595520000) (t
    21)))) (num 3750049545908649984000))⟩

/-- `P_13_5_Deriv` (ass_leg_function.cc:4918-4958). -/
def P_13_5_Deriv : Prog :=
⟨[(1, (sqrt (num 34034))), (2, (mul x x)), (3, (sub (num 1) (t 2))), (4, (sqrt (t 3))), (7, (mul (t 2) (t 2))), (8,
    (mul (t 7) (t 7))), (10, (neg (t 3))), (14, (mul (t 10) (t 10))), (17, (mul (t 14) (t 10))), (20, (mul (t 14) (t
    14))), (26, (mul (t 3) (t 3))), (29, (mul (t 2) x))], (sub (div (mul (mul (mul (mul (t 1) (t 4)) (t 3)) (add (add
    (add (add (mul (num 2109402869573615616000) (t 8)) (mul (mul (mul (num 4921940029005103104000) (t 10)) (t 7)) (t
    2))) (mul (mul (num 2636753586967019520000) (t 7)) (t 14))) (mul (mul (num 329594198370877440000) (t 17)) (t 2)))
    (mul (num 4577697199595520000) (t 20)))) x) (num 750009909181729996800)) (div (mul (mul (mul (t 1) (t 4)) (t 26))
    (add (add (add (mul (mul (num 26719103014599131136000) (t 7)) (t 29)) (mul (mul (mul (num 40078654521898696704000)
    (t 10)) (t 7)) x)) (mul (mul (num 12524579538093342720000) (t 14)) (t 29))) (mul (mul (num 695809974338519040000)
    (t 17)) x))) (num 3750049545908649984000)))⟩

/-- `P_13_6` (ass_leg_function.cc:4962-4987). -/
def P_13_6 : Prog :=
⟨[(1, (sqrt (num 323323))), (2, (mul x x)), (3, (sub (num 1) (t 2))), (4, (mul (t 3) (t 3))), (7, (mul (t 2) x)), (8,
    (mul (t 2) (t 2))), (11, (neg (t 3))), (15, (mul (t 11) (t 11)))], (div (mul (mul (mul (t 1) (t 4)) (t 3)) (add
    (add (add (mul (mul (num 26719103014599131136000) (t 8)) (t 7)) (mul (mul (mul (num 40078654521898696704000) (t
    11)) (t 8)) x)) (mul (mul (num 12524579538093342720000) (t 7)) (t 15))) (mul (mul (mul (num 695809974338519040000)
    (t 15)) (t 11)) x))) (num 142501882744528699392000))⟩

/-- `P_13_6_Deriv` (ass_leg_function.cc:4991-5024). -/
def P_13_6_Deriv : Prog :=
⟨[(1, (sqrt (num 323323))), (2, (mul x x)), (3, (sub (num 1) (t 2))), (4, (mul (t 3) (t 3))), (6, (mul (t 2) x)), (7,
    (mul (t 2) (t 2))), (10, (neg (t 3))), (14, (mul (t 10) (t 10))), (17, (mul (t 14) (t 10)))], (add (div (mul (mul
    (mul (neg (t 1)) (t 4)) (add (add (add (mul (mul (num 26719103014599131136000) (t 7)) (t 6)) (mul (mul (mul (num
    40078654521898696704000) (t 10)) (t 7)) x)) (mul (mul (num 12524579538093342720000) (t 14)) (t 6))) (mul (mul (num
    695809974338519040000) (t 17)) x))) x) (num 23750313790754783232000)) (div (mul (mul (mul (t 1) (t 4)) (t 3)) (add
    (add (add (mul (mul (num 267191030145991311360000) (t 7)) (t 2)) (mul (mul (num 250491590761866854400000) (t 10))
    (t 7))) (mul (mul (num 41748598460311142400000) (t 14)) (t 2))) (mul (num 695809974338519040000) (t 17)))) (num
    142501882744528699392000)))⟩

/-- `P_13_7` (ass_leg_function.cc:5028-5053). -/
def P_13_7 : Prog :=
⟨[(1, (sqrt (num 230945))), (2, (mul x x)), (3, (sub (num 1) (t 2))), (4, (mul (t 3) (t 3))), (6, (sqrt (t 3))), (9,
    (mul (t 2) (t 2))), (12, (neg (t 3))), (15, (mul (t 12) (t 12)))], (div (mul (mul (mul (mul (neg (t 1)) (t 6)) (t
    4)) (t 3)) (add (add (add (mul (mul (num 267191030145991311360000) (t 9)) (t 2)) (mul (mul (num
    250491590761866854400000) (t 12)) (t 9))) (mul (mul (num 41748598460311142400000) (t 15)) (t 2))) (mul (mul (num
    695809974338519040000) (t 12)) (t 15)))) (num 1425018827445286993920000))⟩

/-- `P_13_7_Deriv` (ass_leg_function.cc:5057-5087). -/
def P_13_7_Deriv : Prog :=
⟨[(1, (sqrt (num 230945))), (2, (mul x x)), (3, (sub (num 1) (t 2))), (4, (mul (t 3) (t 3))), (5, (sqrt (t 3))), (8,
    (mul (t 2) (t 2))), (11, (neg (t 3))), (14, (mul (t 11) (t 11)))], (sub (div (mul (mul (mul (mul (t 1) (t 5)) (t
    4)) (add (add (add (mul (mul (num 267191030145991311360000) (t 8)) (t 2)) (mul (mul (num 250491590761866854400000)
    (t 11)) (t 8))) (mul (mul (num 41748598460311142400000) (t 14)) (t 2))) (mul (mul (num 695809974338519040000) (t
    14)) (t 11)))) x) (num 203574118206469570560000)) (div (mul (mul (mul (mul (t 1) (t 5)) (t 4)) (t 3)) (add (add
    (mul (mul (num 2104129362399681576960000) (t 8)) x) (mul (mul (mul (num 1168960756888711987200000) (t 11)) (t 2))
    x)) (mul (mul (num 87672056766653399040000) (t 14)) x))) (num 1425018827445286993920000)))⟩

/-- `P_13_8` (ass_leg_function.cc:5091-5115). -/
def P_13_8 : Prog :=
⟨[(1, (sqrt (num 3233230))), (2, (mul x x)), (3, (sub (num 1) (t 2))), (4, (mul (t 3) (t 3))), (5, (mul (t 4) (t 4))),
    (7, (mul (t 2) (t 2))), (10, (neg (t 3))), (14, (mul (t 10) (t 10)))], (div (mul (mul (t 1) (t 5)) (add (add (mul
    (mul (num 2104129362399681576960000) (t 7)) x) (mul (mul (mul (num 1168960756888711987200000) (t 10)) (t 2)) x))
    (mul (mul (num 87672056766653399040000) (t 14)) x))) (num 59850790752702053744640000))⟩

/-- `P_13_8_Deriv` (ass_leg_function.cc:5119-5148). -/
def P_13_8_Deriv : Prog :=
⟨[(1, (sqrt (num 3233230))), (2, (mul x x)), (3, (sub (num 1) (t 2))), (4, (mul (t 3) (t 3))), (7, (mul (t 2) (t 2))),
    (10, (neg (t 3))), (14, (mul (t 10) (t 10))), (21, (mul (t 4) (t 4)))], (add (div (mul (mul (mul (mul (neg (t 1))
    (t 4)) (t 3)) (add (add (mul (mul (num 2104129362399681576960000) (t 7)) x) (mul (mul (mul (num
    1168960756888711987200000) (t 10)) (t 2)) x)) (mul (mul (num 87672056766653399040000) (t 14)) x))) x) (num
    7481348844087756718080000)) (div (mul (mul (t 1) (t 21)) (add (add (mul (num 12858568325775831859200000) (t 7))
    (mul (mul (num 3857570497732749557760000) (t 10)) (t 2))) (mul (num 87672056766653399040000) (t 14)))) (num
    59850790752702053744640000)))⟩

/-- `P_13_9` (ass_leg_function.cc:5152-5178). -/
def P_13_9 : Prog :=
⟨[(1, (sqrt (num 29393))), (2, (mul x x)), (3, (sub (num 1) (t 2))), (4, (mul (t 3) (t 3))), (5, (mul (t 4) (t 4))),
    (6, (sqrt (t 3))), (9, (mul (t 2) (t 2))), (11, (neg (t 3))), (14, (mul (t 11) (t 11)))], (div (mul (mul (mul (neg
    (t 1)) (t 6)) (t 5)) (add (add (mul (num 12858568325775831859200000) (t 9)) (mul (mul (num
    3857570497732749557760000) (t 11)) (t 2))) (mul (num 87672056766653399040000) (t 14)))) (num
    59850790752702053744640000))⟩

/-- `P_13_9_Deriv` (ass_leg_function.cc:5182-5212). -/
def P_13_9_Deriv : Prog :=
⟨[(1, (sqrt (num 29393))), (2, (mul x x)), (3, (sub (num 1) (t 2))), (4, (mul (t 3) (t 3))), (6, (sqrt (t 3))), (9,
    (mul (t 2) (t 2))), (11, (neg (t 3))), (14, (mul (t 11) (t 11))), (20, (mul (t 4) (t 4)))], (sub (div (mul (mul
    (mul (mul (mul (t 1) (t 6)) (t 4)) (t 3)) (add (add (mul (num 12858568325775831859200000) (t 9)) (mul (mul (num
    3857570497732749557760000) (t 11)) (t 2))) (mul (num 87672056766653399040000) (t 14)))) x) (num
    6650087861411339304960000)) (div (mul (mul (mul (t 1) (t 6)) (t 20)) (add (mul (mul (num
    59149414298568826552320000) (t 2)) x) (mul (mul (num 8065829222532112711680000) (t 11)) x))) (num
    59850790752702053744640000)))⟩

/-- `P_13_10` (ass_leg_function.cc:5216-5233). -/
def P_13_10 : Prog :=
⟨[(1, (sqrt (num 676039))), (2, (mul x x)), (3, (sub (num 1) (t 2))), (4, (mul (t 3) (t 3))), (5, (mul (t 4) (t 4)))],
    (div (mul (mul (mul (t 1) (t 5)) (t 3)) (sub (mul (mul (num 59149414298568826552320000) (t 2)) x) (mul (mul (num
    8065829222532112711680000) (t 3)) x))) (num 2753136374624294472253440000))⟩

/-- `P_13_10_Deriv` (ass_leg_function.cc:5237-5258). -/
def P_13_10_Deriv : Prog :=
⟨[(1, (sqrt (num 676039))), (2, (mul x x)), (3, (sub (num 1) (t 2))), (4, (mul (t 3) (t 3))), (5, (mul (t 4) (t 4)))],
    (add (div (mul (mul (mul (neg (t 1)) (t 5)) (sub (mul (mul (num 59149414298568826552320000) (t 2)) x) (mul (mul
    (num 8065829222532112711680000) (t 3)) x))) x) (num 275313637462429447225344000)) (div (mul (mul (mul (t 1) (t 5))
    (t 3)) (sub (mul (num 201645730563302817792000000) (t 2)) (num 8065829222532112711680000))) (num
    2753136374624294472253440000)))⟩

/-- `P_13_11` (ass_leg_function.cc:5262-5281). -/
def P_13_11 : Prog :=
⟨[(1, (sqrt (num 1352078))), (2, (mul x x)), (3, (sub (num 1) (t 2))), (4, (mul (t 3) (t 3))), (5, (mul (t 4) (t 4))),
    (7, (sqrt (t 3)))], (div (mul (mul (mul (mul (neg (t 1)) (t 7)) (t 5)) (t 3)) (sub (mul (num
    201645730563302817792000000) (t 2)) (num 8065829222532112711680000))) (num 33037636495491533667041280000))⟩

/-- `P_13_11_Deriv` (ass_leg_function.cc:5285-5305). -/
def P_13_11_Deriv : Prog :=
⟨[(1, (sqrt (num 1352078))), (2, (mul x x)), (3, (sub (num 1) (t 2))), (4, (mul (t 3) (t 3))), (5, (mul (t 4) (t 4))),
    (6, (sqrt (t 3)))], (sub (div (mul (mul (mul (mul (t 1) (t 6)) (t 5)) (sub (mul (num 201645730563302817792000000)
    (t 2)) (num 8065829222532112711680000))) x) (num 3003421499590139424276480000)) (mul (mul (mul (mul (mul (div (num
    25) (num 2048)) (t 1)) (t 6)) (t 5)) (t 3)) x))⟩

/-- `P_13_12` (ass_leg_function.cc:5309-5321). -/
def P_13_12 : Prog :=
⟨[(1, (sqrt (num 676039))), (2, (mul x x)), (4, (sq (sub (num 1) (t 2)))), (5, (mul (t 4) (t 4)))], (mul (mul (mul
    (mul (div (num 5) (num 2048)) (t 1)) (t 5)) (t 4)) x)⟩

/-- `P_13_12_Deriv` (ass_leg_function.cc:5325-5340). -/
def P_13_12_Deriv : Prog :=
⟨[(1, (sqrt (num 676039))), (2, (mul x x)), (3, (sub (num 1) (t 2))), (4, (mul (t 3) (t 3))), (5, (mul (t 4) (t 4)))],
    (add (mul (mul (mul (mul (div (neg (num 15)) (num 512)) (t 1)) (t 5)) (t 3)) (t 2)) (mul (mul (mul (div (num 5)
    (num 2048)) (t 1)) (t 5)) (t 4)))⟩

/-- `P_13_13` (ass_leg_function.cc:5344-5360). -/
def P_13_13 : Prog :=
⟨[(1, (sqrt (num 104006))), (2, (mul x x)), (3, (sub (num 1) (t 2))), (4, (mul (t 3) (t 3))), (5, (mul (t 4) (t 4))),
    (7, (sqrt (t 3)))], (mul (mul (mul (mul (div (neg (num 5)) (num 4096)) (t 1)) (t 7)) (t 5)) (t 4))⟩

/-- `P_13_13_Deriv` (ass_leg_function.cc:5364-5380). -/
def P_13_13_Deriv : Prog :=
⟨[(1, (sqrt (num 104006))), (2, (mul x x)), (3, (sub (num 1) (t 2))), (4, (mul (t 3) (t 3))), (5, (mul (t 4) (t 4))),
    (7, (sqrt (t 3)))], (mul (mul (mul (mul (mul (div (num 65) (num 4096)) (t 1)) (t 7)) (t 5)) (t 3)) x)⟩

/-- The functions `P_13_m`. -/
def vals13 : List Prog := [P_13_0, P_13_1, P_13_2, P_13_3, P_13_4, P_13_5, P_13_6, P_13_7, P_13_8, P_13_9, P_13_10,
    P_13_11, P_13_12, P_13_13]

/-- The functions `P_13_m_Deriv`. -/
def ders13 : List Prog := [P_13_0_Deriv, P_13_1_Deriv, P_13_2_Deriv, P_13_3_Deriv, P_13_4_Deriv, P_13_5_Deriv,
    P_13_6_Deriv, P_13_7_Deriv, P_13_8_Deriv, P_13_9_Deriv, P_13_10_Deriv, P_13_11_Deriv, P_13_12_Deriv,
    P_13_13_Deriv]

/-- Certificates. -/
def certs13 : List (ℕ × ℕ × ℕ) := [(1, 1, 1), (182, 1, 1), (910, 1, 6), (10010, 1, 24), (17017, 1, 240), (34034, 1,
    2160), (323323, 1, 8640), (230945, 1, 120960), (3233230, 1, 362880), (29393, 1, 39916800), (676039, 1, 79833600),
    (1352078, 1, 479001600), (676039, 1, 4790016000), (104006, 1, 62270208000)]

theorem row13 : checkRow 13 0 certs13 vals13 ders13 = true := by decide +kernel

end PiBem.Legendre.Table
