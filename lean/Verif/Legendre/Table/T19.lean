import Verif.Legendre.Check

/-! Generated by tools/leggen.py from source/ass_leg_function.cc: the functions `P_19_m` and `P_19_m_Deriv`. -/

namespace PiBem.Legendre.Table

open Ex

/-- `P_19_0` (ass_leg_function.cc:11332-11367). -/
def P_19_0 : Prog :=
⟨[(1, (mul x x)), (2, (mul (t 1) x)), (3, (mul (t 1) (t 1))), (4, (mul (t 3) (t 3))), (5, (mul (t 4) (t 4))), (7, (sub
    (t 1) (num 1))), (11, (mul (t 7) (t 7))), (12, (mul (t 3) (t 2))), (16, (mul (t 11) (t 7))), (17, (mul (t 3) x)),
    (21, (mul (t 11) (t 11))), (35, (mul (t 21) (t 21)))], (add (add (add (add (add (add (add (add (add (mul (t 5) (t
    2)) (mul (mul (mul (div (num 171) (num 2)) (t 7)) (t 5)) x)) (mul (mul (mul (div (num 2907) (num 2)) (t 11)) (t
    4)) (t 12))) (mul (mul (mul (div (num 33915) (num 4)) (t 16)) (t 4)) (t 17))) (mul (mul (mul (div (num 1322685)
    (num 64)) (t 21)) (t 4)) (t 2))) (mul (mul (mul (mul (div (num 2909907) (num 128)) (t 21)) (t 7)) (t 4)) x)) (mul
    (mul (mul (div (num 2909907) (num 256)) (t 21)) (t 11)) (t 12))) (mul (mul (mul (div (num 1247103) (num 512)) (t
    21)) (t 16)) (t 17))) (mul (mul (div (num 6235515) (num 32768)) (t 35)) (t 2))) (mul (mul (mul (div (num 230945)
    (num 65536)) (t 35)) (t 7)) x))⟩

/-- `P_19_0_Deriv` (ass_leg_function.cc:11369-11400). -/
def P_19_0_Deriv : Prog :=
⟨[(1, (mul x x)), (2, (mul (t 1) (t 1))), (3, (mul (t 2) (t 2))), (4, (mul (t 3) (t 3))), (7, (sub (t 1) (num 1))),
    (10, (mul (t 7) (t 7))), (11, (mul (t 1) (t 2))), (15, (mul (t 10) (t 7))), (19, (mul (t 10) (t 10))), (32, (mul
    (t 19) (t 19)))], (add (add (add (add (add (add (add (add (add (mul (mul (num 190) (t 4)) (t 1)) (mul (mul (div
    (num 14535) (num 2)) (t 7)) (t 4))) (mul (mul (mul (num 72675) (t 10)) (t 3)) (t 11))) (mul (mul (mul (div (num
    2204475) (num 8)) (t 15)) (t 3)) (t 2))) (mul (mul (mul (div (num 14549535) (num 32)) (t 19)) (t 3)) (t 1))) (mul
    (mul (mul (div (num 43648605) (num 128)) (t 19)) (t 7)) (t 3))) (mul (mul (mul (div (num 14549535) (num 128)) (t
    19)) (t 10)) (t 11))) (mul (mul (mul (div (num 31177575) (num 2048)) (t 19)) (t 15)) (t 2))) (mul (mul (div (num
    10392525) (num 16384)) (t 32)) (t 1))) (mul (mul (div (num 230945) (num 65536)) (t 32)) (t 7)))⟩

/-- `P_19_1` (ass_leg_function.cc:11404-11445). -/
def P_19_1 : Prog :=
⟨[(1, (sqrt (num 95))), (2, (mul x x)), (3, (sub (num 1) (t 2))), (4, (sqrt (t 3))), (6, (mul (t 2) (t 2))), (7, (mul
    (t 6) (t 6))), (8, (mul (t 7) (t 7))), (11, (neg (t 3))), (14, (mul (t 11) (t 11))), (15, (mul (t 6) (t 2))), (19,
    (mul (t 14) (t 11))), (23, (mul (t 14) (t 14))), (36, (mul (t 23) (t 23)))], (div (mul (mul (neg (t 1)) (t 4))
    (add (add (add (add (add (add (add (add (add (mul (mul (num 12117642616597685207040000) (t 8)) (t 2)) (mul (mul
    (num 463499830084861459169280000) (t 11)) (t 8))) (mul (mul (mul (num 4634998300848614591692800000) (t 14)) (t 7))
    (t 15))) (mul (mul (mul (num 17574368557384330326835200000) (t 19)) (t 7)) (t 6))) (mul (mul (mul (num
    28997708119684145039278080000) (t 23)) (t 7)) (t 2))) (mul (mul (mul (num 21748281089763108779458560000) (t 23))
    (t 11)) (t 7))) (mul (mul (mul (num 7249427029921036259819520000) (t 23)) (t 14)) (t 15))) (mul (mul (mul (num
    970905405792995927654400000) (t 23)) (t 19)) (t 6))) (mul (mul (num 40454391908041496985600000) (t 36)) (t 2)))
    (mul (mul (num 224746621711341649920000) (t 36)) (t 11)))) (num 12117642616597685207040000))⟩

/-- `P_19_1_Deriv` (ass_leg_function.cc:11449-11513). -/
def P_19_1_Deriv : Prog :=
⟨[(1, (sqrt (num 95))), (2, (mul x x)), (3, (sub (num 1) (t 2))), (4, (sqrt (t 3))), (7, (mul (t 2) (t 2))), (8, (mul
    (t 7) (t 7))), (9, (mul (t 8) (t 8))), (12, (neg (t 3))), (15, (mul (t 12) (t 12))), (16, (mul (t 7) (t 2))), (20,
    (mul (t 15) (t 12))), (24, (mul (t 15) (t 15))), (28, (mul (t 24) (t 12))), (31, (mul (t 24) (t 15))), (34, (mul
    (t 24) (t 20))), (37, (mul (t 24) (t 24))), (48, (mul (t 2) x)), (49, (mul (t 7) (t 48))), (53, (mul (t 7) x))],
    (sub (div (mul (mul (div (t 1) (t 4)) (add (add (add (add (add (add (add (add (add (mul (mul (num
    12117642616597685207040000) (t 2)) (t 9)) (mul (mul (num 463499830084861459169280000) (t 12)) (t 9))) (mul (mul
    (mul (num 4634998300848614591692800000) (t 15)) (t 8)) (t 16))) (mul (mul (mul (num 17574368557384330326835200000)
    (t 20)) (t 8)) (t 7))) (mul (mul (mul (num 28997708119684145039278080000) (t 24)) (t 8)) (t 2))) (mul (mul (num
    21748281089763108779458560000) (t 28)) (t 8))) (mul (mul (num 7249427029921036259819520000) (t 31)) (t 16))) (mul
    (mul (num 970905405792995927654400000) (t 34)) (t 7))) (mul (mul (num 40454391908041496985600000) (t 37)) (t 2)))
    (mul (mul (num 224746621711341649920000) (t 37)) (t 12)))) x) (num 12117642616597685207040000)) (div (mul (mul (t
    1) (t 4)) (add (add (add (add (add (add (add (add (mul (mul (num 1145117227268481252065280000) (t 9)) x) (mul (mul
    (mul (num 25955990484752241713479680000) (t 12)) (t 8)) (t 49))) (mul (mul (mul (num
    170336187556186586244710400000) (t 15)) (t 8)) (t 53))) (mul (mul (mul (num 442874087646085124236247040000) (t
    20)) (t 8)) (t 48))) (mul (mul (mul (num 507459892094472538187366400000) (t 24)) (t 8)) x)) (mul (mul (num
    260979373077157305353502720000) (t 28)) (t 49))) (mul (mul (num 57089237860628160546078720000) (t 31)) (t 53)))
    (mul (mul (num 4530891893700647662387200000) (t 48)) (t 34))) (mul (mul (num 84954223006887143669760000) (t 37))
    x))) (num 12117642616597685207040000)))⟩

/-- `P_19_2` (ass_leg_function.cc:11517-11559). -/
def P_19_2 : Prog :=
⟨[(1, (sqrt (num 3990))), (2, (mul x x)), (3, (sub (num 1) (t 2))), (5, (mul (t 2) (t 2))), (6, (mul (t 5) (t 5))),
    (7, (mul (t 6) (t 6))), (10, (neg (t 3))), (11, (mul (t 2) x)), (12, (mul (t 5) (t 11))), (16, (mul (t 10) (t
    10))), (17, (mul (t 5) x)), (21, (mul (t 16) (t 10))), (25, (mul (t 16) (t 16))), (38, (mul (t 25) (t 25)))], (div
    (mul (mul (t 1) (t 3)) (add (add (add (add (add (add (add (add (mul (mul (num 1145117227268481252065280000) (t 7))
    x) (mul (mul (mul (num 25955990484752241713479680000) (t 10)) (t 6)) (t 12))) (mul (mul (mul (num
    170336187556186586244710400000) (t 16)) (t 6)) (t 17))) (mul (mul (mul (num 442874087646085124236247040000) (t
    21)) (t 6)) (t 11))) (mul (mul (mul (num 507459892094472538187366400000) (t 25)) (t 6)) x)) (mul (mul (mul (num
    260979373077157305353502720000) (t 25)) (t 10)) (t 12))) (mul (mul (mul (num 57089237860628160546078720000) (t
    25)) (t 16)) (t 17))) (mul (mul (mul (num 4530891893700647662387200000) (t 25)) (t 21)) (t 11))) (mul (mul (num
    84954223006887143669760000) (t 38)) x))) (num 1526822969691308336087040000))⟩

/-- `P_19_2_Deriv` (ass_leg_function.cc:11563-11622). -/
def P_19_2_Deriv : Prog :=
⟨[(1, (sqrt (num 3990))), (3, (mul x x)), (4, (mul (t 3) (t 3))), (5, (mul (t 4) (t 4))), (6, (mul (t 5) (t 5))), (9,
    (sub (t 3) (num 1))), (10, (mul (t 3) x)), (11, (mul (t 4) (t 10))), (15, (mul (t 9) (t 9))), (16, (mul (t 4) x)),
    (20, (mul (t 15) (t 9))), (24, (mul (t 15) (t 15))), (28, (mul (t 24) (t 9))), (31, (mul (t 24) (t 15))), (34,
    (mul (t 24) (t 20))), (37, (mul (t 24) (t 24))), (46, (mul (t 4) (t 3)))], (sub (div (mul (mul (neg (t 1)) x) (add
    (add (add (add (add (add (add (add (mul (mul (num 1145117227268481252065280000) (t 6)) x) (mul (mul (mul (num
    25955990484752241713479680000) (t 9)) (t 5)) (t 11))) (mul (mul (mul (num 170336187556186586244710400000) (t 15))
    (t 5)) (t 16))) (mul (mul (mul (num 442874087646085124236247040000) (t 20)) (t 5)) (t 10))) (mul (mul (mul (num
    507459892094472538187366400000) (t 24)) (t 5)) x)) (mul (mul (num 260979373077157305353502720000) (t 28)) (t 11)))
    (mul (mul (num 57089237860628160546078720000) (t 31)) (t 16))) (mul (mul (num 4530891893700647662387200000) (t
    34)) (t 10))) (mul (mul (num 84954223006887143669760000) (t 37)) x))) (num 763411484845654168043520000)) (div (mul
    (mul (t 1) (t 9)) (add (add (add (add (add (add (add (add (mul (num 71378973833068664712069120000) (t 6)) (mul
    (mul (mul (num 1070684607496029970681036800000) (t 9)) (t 5)) (t 46))) (mul (mul (mul (num
    4871614964106936366598717440000) (t 15)) (t 5)) (t 4))) (mul (mul (mul (num 8931294100862716672097648640000) (t
    20)) (t 5)) (t 3))) (mul (mul (num 7176932759621825897221324800000) (t 24)) (t 5))) (mul (mul (num
    2511926465867639064027463680000) (t 28)) (t 46))) (mul (mul (num 348878675814949870003814400000) (t 31)) (t 4)))
    (mul (mul (num 14951943249212137285877760000) (t 34)) (t 3))) (mul (num 84954223006887143669760000) (t 37)))) (num
    1526822969691308336087040000)))⟩

/-- `P_19_3` (ass_leg_function.cc:11626-11666). -/
def P_19_3 : Prog :=
⟨[(1, (sqrt (num 373065))), (2, (mul x x)), (3, (sub (num 1) (t 2))), (4, (sqrt (t 3))), (7, (mul (t 2) (t 2))), (8,
    (mul (t 7) (t 7))), (9, (mul (t 8) (t 8))), (11, (neg (t 3))), (12, (mul (t 7) (t 2))), (16, (mul (t 11) (t 11))),
    (20, (mul (t 16) (t 11))), (24, (mul (t 16) (t 16))), (36, (mul (t 24) (t 24)))], (div (mul (mul (mul (neg (t 1))
    (t 4)) (t 3)) (add (add (add (add (add (add (add (add (mul (num 71378973833068664712069120000) (t 9)) (mul (mul
    (mul (num 1070684607496029970681036800000) (t 11)) (t 8)) (t 12))) (mul (mul (mul (num
    4871614964106936366598717440000) (t 16)) (t 8)) (t 7))) (mul (mul (mul (num 8931294100862716672097648640000) (t
    20)) (t 8)) (t 2))) (mul (mul (num 7176932759621825897221324800000) (t 24)) (t 8))) (mul (mul (mul (num
    2511926465867639064027463680000) (t 24)) (t 11)) (t 12))) (mul (mul (mul (num 348878675814949870003814400000) (t
    24)) (t 16)) (t 7))) (mul (mul (mul (num 14951943249212137285877760000) (t 24)) (t 20)) (t 2))) (mul (num
    84954223006887143669760000) (t 36)))) (num 285515895332274658848276480000))⟩

/-- `P_19_3_Deriv` (ass_leg_function.cc:11670-11732). -/
def P_19_3_Deriv : Prog :=
⟨[(1, (sqrt (num 373065))), (2, (mul x x)), (3, (sub (num 1) (t 2))), (4, (sqrt (t 3))), (6, (mul (t 2) (t 2))), (7,
    (mul (t 6) (t 6))), (8, (mul (t 7) (t 7))), (10, (neg (t 3))), (11, (mul (t 6) (t 2))), (15, (mul (t 10) (t 10))),
    (19, (mul (t 15) (t 10))), (23, (mul (t 15) (t 15))), (26, (mul (t 23) (t 10))), (29, (mul (t 23) (t 15))), (32,
    (mul (t 23) (t 19))), (35, (mul (t 23) (t 23))), (43, (mul (t 2) x)), (44, (mul (t 6) (t 43))), (47, (mul (t 6)
    x))], (sub (div (mul (mul (mul (t 1) (t 4)) (add (add (add (add (add (add (add (add (mul (num
    71378973833068664712069120000) (t 8)) (mul (mul (mul (num 1070684607496029970681036800000) (t 10)) (t 7)) (t 11)))
    (mul (mul (mul (num 4871614964106936366598717440000) (t 15)) (t 7)) (t 6))) (mul (mul (mul (num
    8931294100862716672097648640000) (t 19)) (t 7)) (t 2))) (mul (mul (num 7176932759621825897221324800000) (t 23)) (t
    7))) (mul (mul (num 2511926465867639064027463680000) (t 26)) (t 11))) (mul (mul (num
    348878675814949870003814400000) (t 29)) (t 6))) (mul (mul (num 14951943249212137285877760000) (t 32)) (t 2))) (mul
    (num 84954223006887143669760000) (t 35)))) x) (num 95171965110758219616092160000)) (div (mul (mul (mul (t 1) (t
    4)) (t 3)) (add (add (add (add (add (add (add (mul (mul (num 3283432796321158576755179520000) (t 7)) (t 44)) (mul
    (mul (mul (num 34476044361372165055929384960000) (t 10)) (t 7)) (t 47))) (mul (mul (mul (num
    112047144174459536431770501120000) (t 15)) (t 7)) (t 43))) (mul (mul (mul (num 146728403085601773898747084800000)
    (t 19)) (t 7)) x)) (mul (mul (num 82534726735650997818045235200000) (t 23)) (t 44))) (mul (mul (num
    19258102904985232824210554880000) (t 26)) (t 47))) (mul (mul (num 1604841908748769402017546240000) (t 29)) (t
    43))) (mul (mul (num 31263154066534468870471680000) (t 32)) x))) (num 285515895332274658848276480000)))⟩

/-- `P_19_4` (ass_leg_function.cc:11736-11775). -/
def P_19_4 : Prog :=
⟨[(1, (sqrt (num 8580495))), (2, (mul x x)), (3, (sub (num 1) (t 2))), (4, (mul (t 3) (t 3))), (6, (mul (t 2) x)), (7,
    (mul (t 2) (t 2))), (8, (mul (t 7) (t 6))), (9, (mul (t 7) (t 7))), (12, (neg (t 3))), (13, (mul (t 7) x)), (17,
    (mul (t 12) (t 12))), (21, (mul (t 17) (t 12))), (25, (mul (t 17) (t 17)))], (div (mul (mul (t 1) (t 4)) (add (add
    (add (add (add (add (add (mul (mul (num 3283432796321158576755179520000) (t 9)) (t 8)) (mul (mul (mul (num
    34476044361372165055929384960000) (t 12)) (t 9)) (t 13))) (mul (mul (mul (num 112047144174459536431770501120000)
    (t 17)) (t 9)) (t 6))) (mul (mul (mul (num 146728403085601773898747084800000) (t 21)) (t 9)) x)) (mul (mul (num
    82534726735650997818045235200000) (t 25)) (t 8))) (mul (mul (mul (num 19258102904985232824210554880000) (t 25)) (t
    12)) (t 13))) (mul (mul (mul (num 1604841908748769402017546240000) (t 25)) (t 17)) (t 6))) (mul (mul (mul (num
    31263154066534468870471680000) (t 25)) (t 21)) x))) (num 26267462370569268614041436160000))⟩

/-- `P_19_4_Deriv` (ass_leg_function.cc:11779-11836). -/
def P_19_4_Deriv : Prog :=
⟨[(1, (sqrt (num 8580495))), (2, (mul x x)), (3, (sub (num 1) (t 2))), (5, (mul (t 2) x)), (6, (mul (t 2) (t 2))), (7,
    (mul (t 6) (t 5))), (8, (mul (t 6) (t 6))), (11, (neg (t 3))), (12, (mul (t 6) x)), (16, (mul (t 11) (t 11))),
    (20, (mul (t 16) (t 11))), (24, (mul (t 16) (t 16))), (27, (mul (t 24) (t 11))), (30, (mul (t 24) (t 16))), (33,
    (mul (t 24) (t 20))), (40, (mul (t 3) (t 3))), (42, (mul (t 6) (t 2)))], (add (div (mul (mul (mul (neg (t 1)) (t
    3)) (add (add (add (add (add (add (add (mul (mul (num 3283432796321158576755179520000) (t 7)) (t 8)) (mul (mul
    (mul (num 34476044361372165055929384960000) (t 11)) (t 8)) (t 12))) (mul (mul (mul (num
    112047144174459536431770501120000) (t 16)) (t 8)) (t 5))) (mul (mul (mul (num 146728403085601773898747084800000)
    (t 20)) (t 8)) x)) (mul (mul (num 82534726735650997818045235200000) (t 24)) (t 7))) (mul (mul (num
    19258102904985232824210554880000) (t 27)) (t 12))) (mul (mul (num 1604841908748769402017546240000) (t 30)) (t 5)))
    (mul (mul (num 31263154066534468870471680000) (t 33)) x))) x) (num 6566865592642317153510359040000)) (div (mul
    (mul (t 1) (t 40)) (add (add (add (add (add (add (add (mul (mul (num 118203580667561708763186462720000) (t 8)) (t
    42)) (mul (mul (mul (num 896377153395676291454164008960000) (t 11)) (t 8)) (t 6))) (mul (mul (mul (num
    2112889004432665544141958021120000) (t 16)) (t 8)) (t 2))) (mul (mul (num 1980833441655623947633085644800000) (t
    20)) (t 8))) (mul (mul (num 770324116199409312968422195200000) (t 24)) (t 42))) (mul (mul (num
    115548617429911396945263329280000) (t 27)) (t 6))) (mul (mul (num 5252209883177790770239242240000) (t 30)) (t 2)))
    (mul (num 31263154066534468870471680000) (t 33)))) (num 26267462370569268614041436160000)))⟩

/-- `P_19_5` (ass_leg_function.cc:11840-11877). -/
def P_19_5 : Prog :=
⟨[(1, (sqrt (num 3432198))), (2, (mul x x)), (3, (sub (num 1) (t 2))), (4, (mul (t 3) (t 3))), (5, (sqrt (t 3))), (8,
    (mul (t 2) (t 2))), (9, (mul (t 8) (t 2))), (10, (mul (t 8) (t 8))), (13, (neg (t 3))), (17, (mul (t 13) (t 13))),
    (21, (mul (t 17) (t 13))), (24, (mul (t 17) (t 17)))], (div (mul (mul (mul (neg (t 1)) (t 5)) (t 4)) (add (add
    (add (add (add (add (add (mul (mul (num 118203580667561708763186462720000) (t 10)) (t 9)) (mul (mul (mul (num
    896377153395676291454164008960000) (t 13)) (t 10)) (t 8))) (mul (mul (mul (num 2112889004432665544141958021120000)
    (t 17)) (t 10)) (t 2))) (mul (mul (num 1980833441655623947633085644800000) (t 21)) (t 10))) (mul (mul (num
    770324116199409312968422195200000) (t 24)) (t 9))) (mul (mul (mul (num 115548617429911396945263329280000) (t 24))
    (t 13)) (t 8))) (mul (mul (mul (num 5252209883177790770239242240000) (t 24)) (t 17)) (t 2))) (mul (mul (num
    31263154066534468870471680000) (t 24)) (t 21)))) (num 315209548446831223368497233920000))⟩

/-- `P_19_5_Deriv` (ass_leg_function.cc:11881-11935). -/
def P_19_5_Deriv : Prog :=
⟨[(1, (sqrt (num 3432198))), (2, (mul x x)), (3, (sub (num 1) (t 2))), (4, (sqrt (t 3))), (7, (mul (t 2) (t 2))), (8,
    (mul (t 7) (t 2))), (9, (mul (t 7) (t 7))), (12, (neg (t 3))), (16, (mul (t 12) (t 12))), (20, (mul (t 16) (t
    12))), (23, (mul (t 16) (t 16))), (26, (mul (t 23) (t 12))), (29, (mul (t 23) (t 16))), (38, (mul (t 3) (t 3))),
    (41, (mul (t 7) x)), (44, (mul (t 2) x))], (sub (div (mul (mul (mul (mul (t 1) (t 4)) (t 3)) (add (add (add (add
    (add (add (add (mul (mul (num 118203580667561708763186462720000) (t 8)) (t 9)) (mul (mul (mul (num
    896377153395676291454164008960000) (t 12)) (t 9)) (t 7))) (mul (mul (mul (num 2112889004432665544141958021120000)
    (t 16)) (t 9)) (t 2))) (mul (mul (num 1980833441655623947633085644800000) (t 20)) (t 9))) (mul (mul (num
    770324116199409312968422195200000) (t 23)) (t 8))) (mul (mul (num 115548617429911396945263329280000) (t 26)) (t
    7))) (mul (mul (num 5252209883177790770239242240000) (t 29)) (t 2))) (mul (mul (num 31263154066534468870471680000)
    (t 23)) (t 20)))) x) (num 63041909689366244673699446784000)) (div (mul (mul (mul (t 1) (t 4)) (t 38)) (add (add
    (add (add (add (add (mul (mul (num 3447604436137216505592938496000000) (t 9)) (t 41)) (mul (mul (mul (num
    19208081858478777674017800192000000) (t 12)) (t 9)) (t 44))) (mul (mul (mul (num
    33013890694260399127218094080000000) (t 16)) (t 9)) x)) (mul (mul (mul (num 22009260462840266084812062720000000)
    (t 20)) (t 7)) (t 44))) (mul (mul (num 5777430871495569847263166464000000) (t 23)) (t 41))) (mul (mul (num
    525220988317779077023924224000000) (t 26)) (t 44))) (mul (mul (num 10942103923287064104665088000000) (t 29)) x)))
    (num 315209548446831223368497233920000)))⟩

/-- `P_19_6` (ass_leg_function.cc:11939-11973). -/
def P_19_6 : Prog :=
⟨[(1, (sqrt (num 245157))), (2, (mul x x)), (3, (sub (num 1) (t 2))), (4, (mul (t 3) (t 3))), (7, (mul (t 2) (t 2))),
    (8, (mul (t 7) x)), (9, (mul (t 7) (t 7))), (12, (neg (t 3))), (13, (mul (t 2) x)), (17, (mul (t 12) (t 12))),
    (25, (mul (t 17) (t 17)))], (div (mul (mul (mul (t 1) (t 4)) (t 3)) (add (add (add (add (add (add (mul (mul (num
    3447604436137216505592938496000000) (t 8)) (t 9)) (mul (mul (mul (num 19208081858478777674017800192000000) (t 12))
    (t 9)) (t 13))) (mul (mul (mul (num 33013890694260399127218094080000000) (t 17)) (t 9)) x)) (mul (mul (mul (mul
    (num 22009260462840266084812062720000000) (t 17)) (t 12)) (t 7)) (t 13))) (mul (mul (num
    5777430871495569847263166464000000) (t 25)) (t 8))) (mul (mul (mul (num 525220988317779077023924224000000) (t 25))
    (t 12)) (t 13))) (mul (mul (mul (num 10942103923287064104665088000000) (t 25)) (t 17)) x))) (num
    1576047742234156116842486169600000))⟩

/-- `P_19_6_Deriv` (ass_leg_function.cc:11977-12026). -/
def P_19_6_Deriv : Prog :=
⟨[(1, (sqrt (num 245157))), (2, (mul x x)), (3, (sub (num 1) (t 2))), (4, (mul (t 3) (t 3))), (6, (mul (t 2) (t 2))),
    (7, (mul (t 6) x)), (8, (mul (t 6) (t 6))), (11, (neg (t 3))), (12, (mul (t 2) x)), (16, (mul (t 11) (t 11))),
    (20, (mul (t 16) (t 11))), (24, (mul (t 16) (t 16))), (27, (mul (t 24) (t 11))), (30, (mul (t 24) (t 16)))], (add
    (div (mul (mul (mul (neg (t 1)) (t 4)) (add (add (add (add (add (add (mul (mul (num
    3447604436137216505592938496000000) (t 8)) (t 7)) (mul (mul (mul (num 19208081858478777674017800192000000) (t 11))
    (t 8)) (t 12))) (mul (mul (mul (num 33013890694260399127218094080000000) (t 16)) (t 8)) x)) (mul (mul (mul (num
    22009260462840266084812062720000000) (t 20)) (t 6)) (t 12))) (mul (mul (num 5777430871495569847263166464000000) (t
    24)) (t 7))) (mul (mul (num 525220988317779077023924224000000) (t 27)) (t 12))) (mul (mul (num
    10942103923287064104665088000000) (t 30)) x))) x) (num 262674623705692686140414361600000)) (div (mul (mul (mul (t
    1) (t 4)) (t 3)) (add (add (add (add (add (add (mul (mul (num 83235021386741369920743800832000000) (t 8)) (t 6))
    (mul (mul (mul (num 343344463220308150923068178432000000) (t 11)) (t 8)) (t 2))) (mul (mul (num
    429180579025385188653835223040000000) (t 16)) (t 8))) (mul (mul (mul (num 200284270211846421371789770752000000) (t
    20)) (t 6)) (t 2))) (mul (mul (num 34139364240655640006555074560000000) (t 24)) (t 6))) (mul (mul (num
    1706968212032782000327753728000000) (t 27)) (t 2))) (mul (num 10942103923287064104665088000000) (t 30)))) (num
    1576047742234156116842486169600000)))⟩

/-- `P_19_7` (ass_leg_function.cc:12030-12062). -/
def P_19_7 : Prog :=
⟨[(1, (sqrt (num 490314))), (2, (mul x x)), (3, (sub (num 1) (t 2))), (4, (mul (t 3) (t 3))), (6, (sqrt (t 3))), (9,
    (mul (t 2) (t 2))), (10, (mul (t 9) (t 9))), (13, (neg (t 3))), (17, (mul (t 13) (t 13))), (24, (mul (t 17) (t
    17)))], (div (mul (mul (mul (mul (neg (t 1)) (t 6)) (t 4)) (t 3)) (add (add (add (add (add (add (mul (mul (num
    83235021386741369920743800832000000) (t 10)) (t 9)) (mul (mul (mul (num 343344463220308150923068178432000000) (t
    13)) (t 10)) (t 2))) (mul (mul (num 429180579025385188653835223040000000) (t 17)) (t 10))) (mul (mul (mul (mul
    (num 200284270211846421371789770752000000) (t 17)) (t 13)) (t 9)) (t 2))) (mul (mul (num
    34139364240655640006555074560000000) (t 24)) (t 9))) (mul (mul (mul (num 1706968212032782000327753728000000) (t
    24)) (t 13)) (t 2))) (mul (mul (num 10942103923287064104665088000000) (t 24)) (t 17)))) (num
    40977241298088059037904640409600000))⟩

/-- `P_19_7_Deriv` (ass_leg_function.cc:12066-12112). -/
def P_19_7_Deriv : Prog :=
⟨[(1, (sqrt (num 490314))), (2, (mul x x)), (3, (sub (num 1) (t 2))), (4, (mul (t 3) (t 3))), (5, (sqrt (t 3))), (8,
    (mul (t 2) (t 2))), (9, (mul (t 8) (t 8))), (12, (neg (t 3))), (16, (mul (t 12) (t 12))), (19, (mul (t 16) (t
    12))), (23, (mul (t 16) (t 16))), (26, (mul (t 23) (t 12))), (38, (mul (t 2) x))], (sub (div (mul (mul (mul (mul
    (t 1) (t 5)) (t 4)) (add (add (add (add (add (add (mul (mul (num 83235021386741369920743800832000000) (t 9)) (t
    8)) (mul (mul (mul (num 343344463220308150923068178432000000) (t 12)) (t 9)) (t 2))) (mul (mul (num
    429180579025385188653835223040000000) (t 16)) (t 9))) (mul (mul (mul (num 200284270211846421371789770752000000) (t
    19)) (t 8)) (t 2))) (mul (mul (num 34139364240655640006555074560000000) (t 23)) (t 8))) (mul (mul (num
    1706968212032782000327753728000000) (t 26)) (t 2))) (mul (mul (num 10942103923287064104665088000000) (t 23)) (t
    16)))) x) (num 5853891614012579862557805772800000)) (div (mul (mul (mul (mul (t 1) (t 5)) (t 4)) (t 3)) (add (add
    (add (add (add (mul (mul (num 1685509183081512740895061966848000000) (t 9)) (t 38)) (mul (mul (mul (num
    5150166948304622263846022676480000000) (t 12)) (t 9)) x)) (mul (mul (mul (num
    4635150253474160037461420408832000000) (t 16)) (t 8)) (t 38))) (mul (mul (mul (num
    1474820535196323648283179220992000000) (t 19)) (t 8)) x)) (mul (mul (num 153627139082950380029497835520000000) (t
    23)) (t 38))) (mul (mul (num 3545241671145008769911488512000000) (t 26)) x))) (num
    40977241298088059037904640409600000)))⟩

/-- `P_19_8` (ass_leg_function.cc:12116-12149). -/
def P_19_8 : Prog :=
⟨[(1, (sqrt (num 490314))), (2, (mul x x)), (3, (sub (num 1) (t 2))), (4, (mul (t 3) (t 3))), (5, (mul (t 4) (t 4))),
    (7, (mul (t 2) x)), (8, (mul (t 2) (t 2))), (9, (mul (t 8) (t 8))), (12, (neg (t 3))), (16, (mul (t 12) (t 12))),
    (24, (mul (t 16) (t 16)))], (div (mul (mul (t 1) (t 5)) (add (add (add (add (add (mul (mul (num
    1685509183081512740895061966848000000) (t 9)) (t 7)) (mul (mul (mul (num 5150166948304622263846022676480000000) (t
    12)) (t 9)) x)) (mul (mul (mul (num 4635150253474160037461420408832000000) (t 16)) (t 8)) (t 7))) (mul (mul (mul
    (mul (num 1474820535196323648283179220992000000) (t 16)) (t 12)) (t 8)) x)) (mul (mul (num
    153627139082950380029497835520000000) (t 24)) (t 7))) (mul (mul (mul (num 3545241671145008769911488512000000) (t
    24)) (t 12)) x))) (num 737590343365585062682283527372800000))⟩

/-- `P_19_8_Deriv` (ass_leg_function.cc:12153-12198). -/
def P_19_8_Deriv : Prog :=
⟨[(1, (sqrt (num 490314))), (2, (mul x x)), (3, (sub (num 1) (t 2))), (4, (mul (t 3) (t 3))), (7, (mul (t 2) x)), (8,
    (mul (t 2) (t 2))), (9, (mul (t 8) (t 8))), (12, (neg (t 3))), (16, (mul (t 12) (t 12))), (20, (mul (t 16) (t
    12))), (24, (mul (t 16) (t 16))), (27, (mul (t 24) (t 12))), (34, (mul (t 4) (t 4)))], (add (div (mul (mul (mul
    (mul (neg (t 1)) (t 4)) (t 3)) (add (add (add (add (add (mul (mul (num 1685509183081512740895061966848000000) (t
    9)) (t 7)) (mul (mul (mul (num 5150166948304622263846022676480000000) (t 12)) (t 9)) x)) (mul (mul (mul (num
    4635150253474160037461420408832000000) (t 16)) (t 8)) (t 7))) (mul (mul (mul (num
    1474820535196323648283179220992000000) (t 20)) (t 8)) x)) (mul (mul (num 153627139082950380029497835520000000) (t
    24)) (t 7))) (mul (mul (num 3545241671145008769911488512000000) (t 27)) x))) x) (num
    92198792920698132835285440921600000)) (div (mul (mul (t 1) (t 34)) (add (add (add (add (add (mul (mul (num
    28840934910505884677537726988288000000) (t 9)) (t 2)) (mul (mul (num 64892103548638240524459885723648000000) (t
    12)) (t 9))) (mul (mul (mul (num 41294974985497062151929018187776000000) (t 16)) (t 8)) (t 2))) (mul (mul (num
    8603119788645221281651878789120000000) (t 20)) (t 8))) (mul (mul (num 496333833960301227787608391680000000) (t
    24)) (t 2))) (mul (num 3545241671145008769911488512000000) (t 27)))) (num 737590343365585062682283527372800000)))⟩

/-- `P_19_9` (ass_leg_function.cc:12202-12235). -/
def P_19_9 : Prog :=
⟨[(1, (sqrt (num 312018))), (2, (mul x x)), (3, (sub (num 1) (t 2))), (4, (mul (t 3) (t 3))), (5, (mul (t 4) (t 4))),
    (6, (sqrt (t 3))), (9, (mul (t 2) (t 2))), (10, (mul (t 9) (t 9))), (13, (neg (t 3))), (16, (mul (t 13) (t 13))),
    (23, (mul (t 16) (t 16)))], (div (mul (mul (mul (neg (t 1)) (t 6)) (t 5)) (add (add (add (add (add (mul (mul (num
    28840934910505884677537726988288000000) (t 10)) (t 2)) (mul (mul (num 64892103548638240524459885723648000000) (t
    13)) (t 10))) (mul (mul (mul (num 41294974985497062151929018187776000000) (t 16)) (t 9)) (t 2))) (mul (mul (mul
    (num 8603119788645221281651878789120000000) (t 16)) (t 13)) (t 9))) (mul (mul (num
    496333833960301227787608391680000000) (t 23)) (t 2))) (mul (mul (num 3545241671145008769911488512000000) (t 23))
    (t 13)))) (num 10326264807118190877551969383219200000))⟩

/-- `P_19_9_Deriv` (ass_leg_function.cc:12239-12283). -/
def P_19_9_Deriv : Prog :=
⟨[(1, (sqrt (num 312018))), (2, (mul x x)), (3, (sub (num 1) (t 2))), (4, (mul (t 3) (t 3))), (6, (sqrt (t 3))), (9,
    (mul (t 2) (t 2))), (10, (mul (t 9) (t 9))), (13, (neg (t 3))), (16, (mul (t 13) (t 13))), (20, (mul (t 16) (t
    13))), (23, (mul (t 16) (t 16))), (32, (mul (t 4) (t 4))), (37, (mul (t 2) x))], (sub (div (mul (mul (mul (mul
    (mul (t 1) (t 6)) (t 4)) (t 3)) (add (add (add (add (add (mul (mul (num 28840934910505884677537726988288000000) (t
    10)) (t 2)) (mul (mul (num 64892103548638240524459885723648000000) (t 13)) (t 10))) (mul (mul (mul (num
    41294974985497062151929018187776000000) (t 16)) (t 9)) (t 2))) (mul (mul (num
    8603119788645221281651878789120000000) (t 20)) (t 9))) (mul (mul (num 496333833960301227787608391680000000) (t
    23)) (t 2))) (mul (mul (num 3545241671145008769911488512000000) (t 23)) (t 13)))) x) (num
    1147362756346465653061329931468800000)) (div (mul (mul (mul (t 1) (t 6)) (t 32)) (add (add (add (add (mul (mul
    (num 418193556202335327824297041330176000000) (t 10)) x) (mul (mul (mul (num
    684316728331094172803395158540288000000) (t 13)) (t 9)) (t 37))) (mul (mul (mul (num
    299388568644853700601485381861376000000) (t 16)) (t 9)) x)) (mul (mul (num 38383149826263294948908382289920000000)
    (t 20)) (t 37))) (mul (mul (num 1028120084632052543274331668480000000) (t 23)) x))) (num
    10326264807118190877551969383219200000)))⟩

/-- `P_19_10` (ass_leg_function.cc:12287-12319). -/
def P_19_10 : Prog :=
⟨[(1, (sqrt (num 22621305))), (2, (mul x x)), (3, (sub (num 1) (t 2))), (4, (mul (t 3) (t 3))), (5, (mul (t 4) (t
    4))), (8, (mul (t 2) (t 2))), (9, (mul (t 8) (t 8))), (12, (neg (t 3))), (13, (mul (t 2) x)), (17, (mul (t 12) (t
    12))), (24, (mul (t 17) (t 17)))], (div (mul (mul (mul (t 1) (t 5)) (t 3)) (add (add (add (add (mul (mul (num
    418193556202335327824297041330176000000) (t 9)) x) (mul (mul (mul (num 684316728331094172803395158540288000000) (t
    12)) (t 8)) (t 13))) (mul (mul (mul (num 299388568644853700601485381861376000000) (t 17)) (t 8)) x)) (mul (mul
    (mul (num 38383149826263294948908382289920000000) (t 17)) (t 12)) (t 13))) (mul (mul (num
    1028120084632052543274331668480000000) (t 24)) x))) (num 1497308397032137677245035560566784000000))⟩

/-- `P_19_10_Deriv` (ass_leg_function.cc:12323-12364). -/
def P_19_10_Deriv : Prog :=
⟨[(1, (sqrt (num 22621305))), (2, (mul x x)), (3, (sub (num 1) (t 2))), (4, (mul (t 3) (t 3))), (5, (mul (t 4) (t
    4))), (7, (mul (t 2) (t 2))), (8, (mul (t 7) (t 7))), (11, (neg (t 3))), (12, (mul (t 2) x)), (16, (mul (t 11) (t
    11))), (20, (mul (t 16) (t 11))), (23, (mul (t 16) (t 16)))], (add (div (mul (mul (mul (neg (t 1)) (t 5)) (add
    (add (add (add (mul (mul (num 418193556202335327824297041330176000000) (t 8)) x) (mul (mul (mul (num
    684316728331094172803395158540288000000) (t 11)) (t 7)) (t 12))) (mul (mul (mul (num
    299388568644853700601485381861376000000) (t 16)) (t 7)) x)) (mul (mul (num 38383149826263294948908382289920000000)
    (t 20)) (t 12))) (mul (mul (num 1028120084632052543274331668480000000) (t 23)) x))) x) (num
    149730839703213767724503556056678400000)) (div (mul (mul (mul (t 1) (t 5)) (t 3)) (add (add (add (add (mul (num
    5132375462483206296025463689052160000000) (t 8)) (mul (mul (mul (num 5987771372897074012029707637227520000000) (t
    11)) (t 7)) (t 2))) (mul (mul (num 1727241742181848272700877203046400000000) (t 16)) (t 7))) (mul (mul (num
    123374410155846305192919800217600000000) (t 20)) (t 2))) (mul (num 1028120084632052543274331668480000000) (t
    23)))) (num 1497308397032137677245035560566784000000)))⟩

/-- `P_19_11` (ass_leg_function.cc:12368-12400). -/
def P_19_11 : Prog :=
⟨[(1, (sqrt (num 3016174))), (2, (mul x x)), (3, (sub (num 1) (t 2))), (4, (mul (t 3) (t 3))), (5, (mul (t 4) (t 4))),
    (7, (sqrt (t 3))), (10, (mul (t 2) (t 2))), (11, (mul (t 10) (t 10))), (13, (neg (t 3))), (17, (mul (t 13) (t
    13))), (23, (mul (t 17) (t 17)))], (div (mul (mul (mul (mul (neg (t 1)) (t 7)) (t 5)) (t 3)) (add (add (add (add
    (mul (num 5132375462483206296025463689052160000000) (t 11)) (mul (mul (mul (num
    5987771372897074012029707637227520000000) (t 13)) (t 10)) (t 2))) (mul (mul (num
    1727241742181848272700877203046400000000) (t 17)) (t 10))) (mul (mul (mul (num
    123374410155846305192919800217600000000) (t 17)) (t 13)) (t 2))) (mul (num 1028120084632052543274331668480000000)
    (t 23)))) (num 8983850382192826063470213363400704000000))⟩

/-- `P_19_11_Deriv` (ass_leg_function.cc:12404-12446). -/
def P_19_11_Deriv : Prog :=
⟨[(1, (sqrt (num 3016174))), (2, (mul x x)), (3, (sub (num 1) (t 2))), (4, (mul (t 3) (t 3))), (5, (mul (t 4) (t 4))),
    (6, (sqrt (t 3))), (9, (mul (t 2) (t 2))), (10, (mul (t 9) (t 9))), (12, (neg (t 3))), (16, (mul (t 12) (t 12))),
    (19, (mul (t 16) (t 12))), (22, (mul (t 16) (t 16))), (31, (mul (t 2) x))], (sub (div (mul (mul (mul (mul (t 1) (t
    6)) (t 5)) (add (add (add (add (mul (num 5132375462483206296025463689052160000000) (t 10)) (mul (mul (mul (num
    5987771372897074012029707637227520000000) (t 12)) (t 9)) (t 2))) (mul (mul (num
    1727241742181848272700877203046400000000) (t 16)) (t 9))) (mul (mul (num 123374410155846305192919800217600000000)
    (t 19)) (t 2))) (mul (num 1028120084632052543274331668480000000) (t 22)))) x) (num
    816713671108438733042746669400064000000)) (div (mul (mul (mul (mul (t 1) (t 6)) (t 5)) (t 3)) (add (add (add (mul
    (mul (num 53034546445659798392263124786872320000000) (t 9)) (t 31)) (mul (mul (mul (num
    42835595206109837162981754635550720000000) (t 12)) (t 9)) x)) (mul (mul (num
    7649213429662470921961027613491200000000) (t 16)) (t 31))) (mul (mul (num 254973780988749030732034253783040000000)
    (t 19)) x))) (num 8983850382192826063470213363400704000000)))⟩

/-- `P_19_12` (ass_leg_function.cc:12450-12477). -/
def P_19_12 : Prog :=
⟨[(1, (sqrt (num 46750697))), (2, (mul x x)), (3, (sub (num 1) (t 2))), (4, (mul (t 3) (t 3))), (5, (mul (t 4) (t
    4))), (8, (mul (t 2) x)), (9, (mul (t 2) (t 2))), (12, (neg (t 3))), (16, (mul (t 12) (t 12)))], (div (mul (mul
    (mul (t 1) (t 5)) (t 4)) (add (add (add (mul (mul (num 53034546445659798392263124786872320000000) (t 9)) (t 8))
    (mul (mul (mul (num 42835595206109837162981754635550720000000) (t 12)) (t 9)) x)) (mul (mul (num
    7649213429662470921961027613491200000000) (t 16)) (t 8))) (mul (mul (mul (num
    254973780988749030732034253783040000000) (t 16)) (t 12)) x))) (num 556998723695955215935153228530843648000000))⟩

/-- `P_19_12_Deriv` (ass_leg_function.cc:12481-12516). -/
def P_19_12_Deriv : Prog :=
⟨[(1, (sqrt (num 46750697))), (2, (mul x x)), (3, (sub (num 1) (t 2))), (4, (mul (t 3) (t 3))), (5, (mul (t 4) (t
    4))), (8, (mul (t 2) x)), (9, (mul (t 2) (t 2))), (12, (neg (t 3))), (16, (mul (t 12) (t 12))), (19, (mul (t 16)
    (t 12)))], (add (div (mul (mul (mul (mul (neg (t 1)) (t 5)) (t 3)) (add (add (add (mul (mul (num
    53034546445659798392263124786872320000000) (t 9)) (t 8)) (mul (mul (mul (num
    42835595206109837162981754635550720000000) (t 12)) (t 9)) x)) (mul (mul (num
    7649213429662470921961027613491200000000) (t 8)) (t 16))) (mul (mul (num 254973780988749030732034253783040000000)
    (t 19)) x))) x) (num 46416560307996267994596102377570304000000)) (div (mul (mul (mul (t 1) (t 5)) (t 4)) (add (add
    (add (mul (mul (num 456913015531838263071805382779207680000000) (t 9)) (t 2)) (mul (mul (num
    244774829749199069502752883631718400000000) (t 12)) (t 9))) (mul (mul (num
    24477482974919906950275288363171840000000) (t 16)) (t 2))) (mul (num 254973780988749030732034253783040000000) (t
    19)))) (num 556998723695955215935153228530843648000000)))⟩

/-- `P_19_13` (ass_leg_function.cc:12520-12547). -/
def P_19_13 : Prog :=
⟨[(1, (sqrt (num 13357342))), (2, (mul x x)), (3, (sub (num 1) (t 2))), (4, (mul (t 3) (t 3))), (5, (mul (t 4) (t
    4))), (7, (sqrt (t 3))), (10, (mul (t 2) (t 2))), (13, (neg (t 3))), (16, (mul (t 13) (t 13)))], (div (mul (mul
    (mul (mul (neg (t 1)) (t 7)) (t 5)) (t 4)) (add (add (add (mul (mul (num
    456913015531838263071805382779207680000000) (t 10)) (t 2)) (mul (mul (num
    244774829749199069502752883631718400000000) (t 13)) (t 10))) (mul (mul (num
    24477482974919906950275288363171840000000) (t 2)) (t 16))) (mul (mul (num 254973780988749030732034253783040000000)
    (t 16)) (t 13)))) (num 4455989789567641727481225828246749184000000))⟩

/-- `P_19_13_Deriv` (ass_leg_function.cc:12551-12583). -/
def P_19_13_Deriv : Prog :=
⟨[(1, (sqrt (num 13357342))), (2, (mul x x)), (3, (sub (num 1) (t 2))), (4, (mul (t 3) (t 3))), (5, (mul (t 4) (t
    4))), (7, (sqrt (t 3))), (10, (mul (t 2) (t 2))), (13, (neg (t 3))), (16, (mul (t 13) (t 13)))], (sub (div (mul
    (mul (mul (mul (mul (t 1) (t 7)) (t 5)) (t 3)) (add (add (add (mul (mul (num
    456913015531838263071805382779207680000000) (t 10)) (t 2)) (mul (mul (num
    244774829749199069502752883631718400000000) (t 13)) (t 10))) (mul (mul (num
    24477482974919906950275288363171840000000) (t 16)) (t 2))) (mul (mul (num 254973780988749030732034253783040000000)
    (t 16)) (t 13)))) x) (num 342768445351357055960094294480519168000000)) (div (mul (mul (mul (mul (t 1) (t 7)) (t
    5)) (t 4)) (add (add (mul (mul (num 3231027752689427717436338063938682880000000) (t 10)) x) (mul (mul (mul (num
    1077009250896475905812112687979560960000000) (t 13)) (t 2)) x)) (mul (mul (num
    50484808635772308084942782249041920000000) (t 16)) x))) (num 4455989789567641727481225828246749184000000)))⟩

/-- `P_19_14` (ass_leg_function.cc:12587-12611). -/
def P_19_14 : Prog :=
⟨[(1, (sqrt (num 73465381))), (2, (mul x x)), (3, (sub (num 1) (t 2))), (4, (mul (t 3) (t 3))), (6, (mul (t 4) (t
    4))), (9, (mul (t 2) (t 2))), (12, (neg (t 3))), (16, (mul (t 12) (t 12)))], (div (mul (mul (mul (mul (t 1) (t 6))
    (t 4)) (t 3)) (add (add (mul (mul (num 3231027752689427717436338063938682880000000) (t 9)) x) (mul (mul (mul (num
    1077009250896475905812112687979560960000000) (t 12)) (t 2)) x)) (mul (mul (num
    50484808635772308084942782249041920000000) (t 16)) x))) (num 147047663055732177006880452332142723072000000))⟩

/-- `P_19_14_Deriv` (ass_leg_function.cc:12615-12644). -/
def P_19_14_Deriv : Prog :=
⟨[(1, (sqrt (num 73465381))), (2, (mul x x)), (3, (sub (num 1) (t 2))), (4, (mul (t 3) (t 3))), (5, (mul (t 4) (t
    4))), (8, (mul (t 2) (t 2))), (11, (neg (t 3))), (15, (mul (t 11) (t 11)))], (add (div (mul (mul (mul (mul (neg (t
    1)) (t 5)) (t 4)) (add (add (mul (mul (num 3231027752689427717436338063938682880000000) (t 8)) x) (mul (mul (mul
    (num 1077009250896475905812112687979560960000000) (t 2)) (t 11)) x)) (mul (mul (num
    50484808635772308084942782249041920000000) (t 15)) x))) x) (num 10503404503980869786205746595153051648000000))
    (div (mul (mul (mul (mul (t 1) (t 5)) (t 4)) (t 3)) (add (add (mul (num
    18309157265240090398805915695652536320000000) (t 8)) (mul (mul (num 3432966987232516949776109192934850560000000)
    (t 11)) (t 2))) (mul (num 50484808635772308084942782249041920000000) (t 15)))) (num
    147047663055732177006880452332142723072000000)))⟩

/-- `P_19_15` (ass_leg_function.cc:12648-12674). -/
def P_19_15 : Prog :=
⟨[(1, (sqrt (num 43214930))), (2, (mul x x)), (3, (sub (num 1) (t 2))), (4, (mul (t 3) (t 3))), (6, (mul (t 4) (t
    4))), (8, (sqrt (t 3))), (11, (mul (t 2) (t 2))), (13, (neg (t 3))), (16, (mul (t 13) (t 13)))], (div (mul (mul
    (mul (mul (mul (neg (t 1)) (t 8)) (t 6)) (t 4)) (t 3)) (add (add (mul (num
    18309157265240090398805915695652536320000000) (t 11)) (mul (mul (num 3432966987232516949776109192934850560000000)
    (t 13)) (t 2))) (mul (num 50484808635772308084942782249041920000000) (t 16)))) (num
    1470476630557321770068804523321427230720000000))⟩

/-- `P_19_15_Deriv` (ass_leg_function.cc:12678-12708). -/
def P_19_15_Deriv : Prog :=
⟨[(1, (sqrt (num 43214930))), (2, (mul x x)), (3, (sub (num 1) (t 2))), (4, (mul (t 3) (t 3))), (5, (mul (t 4) (t
    4))), (7, (sqrt (t 3))), (10, (mul (t 2) (t 2))), (12, (neg (t 3))), (15, (mul (t 12) (t 12)))], (sub (div (mul
    (mul (mul (mul (mul (t 1) (t 7)) (t 5)) (t 4)) (add (add (mul (num 18309157265240090398805915695652536320000000)
    (t 10)) (mul (mul (num 3432966987232516949776109192934850560000000) (t 12)) (t 2))) (mul (num
    50484808635772308084942782249041920000000) (t 15)))) x) (num 98031775370488118004586968221428482048000000)) (div
    (mul (mul (mul (mul (mul (t 1) (t 7)) (t 5)) (t 4)) (t 3)) (add (mul (mul (num
    80102563035425395494775881168479846400000000) (t 2)) x) (mul (mul (num
    7067873209008123131891989514865868800000000) (t 12)) x))) (num 1470476630557321770068804523321427230720000000)))⟩

/-- `P_19_16` (ass_leg_function.cc:12712-12731). -/
def P_19_16 : Prog :=
⟨[(1, (sqrt (num 60500902))), (2, (mul x x)), (3, (sub (num 1) (t 2))), (4, (mul (t 3) (t 3))), (5, (mul (t 4) (t
    4))), (6, (mul (t 5) (t 5)))], (div (mul (mul (t 1) (t 6)) (sub (mul (mul (num
    80102563035425395494775881168479846400000000) (t 2)) x) (mul (mul (num
    7067873209008123131891989514865868800000000) (t 3)) x))) (num 20586672827802504780963263326499981230080000000))⟩

/-- `P_19_16_Deriv` (ass_leg_function.cc:12735-12758). -/
def P_19_16_Deriv : Prog :=
⟨[(1, (sqrt (num 60500902))), (2, (mul x x)), (3, (sub (num 1) (t 2))), (4, (mul (t 3) (t 3))), (6, (mul (t 4) (t
    4))), (18, (mul (t 6) (t 6)))], (add (div (mul (mul (mul (mul (mul (neg (t 1)) (t 6)) (t 4)) (t 3)) (sub (mul (mul
    (num 80102563035425395494775881168479846400000000) (t 2)) x) (mul (mul (num
    7067873209008123131891989514865868800000000) (t 3)) x))) x) (num 1286667051737656548810203957906248826880000000))
    (div (mul (mul (t 1) (t 18)) (sub (mul (num 261511308733300555880003612050037145600000000) (t 2)) (num
    7067873209008123131891989514865868800000000))) (num 20586672827802504780963263326499981230080000000)))⟩

/-- `P_19_17` (ass_leg_function.cc:12762-12783). -/
def P_19_17 : Prog :=
⟨[(1, (sqrt (num 181502706))), (2, (mul x x)), (3, (sub (num 1) (t 2))), (4, (mul (t 3) (t 3))), (5, (mul (t 4) (t
    4))), (6, (mul (t 5) (t 5))), (7, (sqrt (t 3)))], (div (mul (mul (mul (neg (t 1)) (t 7)) (t 6)) (sub (mul (num
    261511308733300555880003612050037145600000000) (t 2)) (num 7067873209008123131891989514865868800000000))) (num
    370560110900445086057338739876999662141440000000))⟩

/-- `P_19_17_Deriv` (ass_leg_function.cc:12787-12809). -/
def P_19_17_Deriv : Prog :=
⟨[(1, (sqrt (num 181502706))), (2, (mul x x)), (3, (sub (num 1) (t 2))), (4, (mul (t 3) (t 3))), (6, (mul (t 4) (t
    4))), (8, (sqrt (t 3))), (16, (mul (t 6) (t 6)))], (sub (div (mul (mul (mul (mul (mul (mul (t 1) (t 8)) (t 6)) (t
    4)) (t 3)) (sub (mul (num 261511308733300555880003612050037145600000000) (t 2)) (num
    7067873209008123131891989514865868800000000))) x) (num 21797653582379122709255219992764686008320000000)) (mul (mul
    (mul (mul (div (num 185) (num 131072)) (t 1)) (t 8)) (t 16)) x))⟩

/-- `P_19_18` (ass_leg_function.cc:12813-12829). -/
def P_19_18 : Prog :=
⟨[(1, (sqrt (num 3357800061))), (2, (mul x x)), (3, (sub (num 1) (t 2))), (4, (mul (t 3) (t 3))), (5, (mul (t 4) (t
    4))), (6, (mul (t 5) (t 5)))], (mul (mul (mul (mul (div (num 5) (num 131072)) (t 1)) (t 6)) (t 3)) x)⟩

/-- `P_19_18_Deriv` (ass_leg_function.cc:12833-12850). -/
def P_19_18_Deriv : Prog :=
⟨[(1, (sqrt (num 3357800061))), (2, (mul x x)), (3, (sub (num 1) (t 2))), (4, (mul (t 3) (t 3))), (5, (mul (t 4) (t
    4))), (6, (mul (t 5) (t 5)))], (add (mul (mul (mul (div (neg (num 45)) (num 65536)) (t 1)) (t 6)) (t 2)) (mul (mul
    (mul (div (num 5) (num 131072)) (t 1)) (t 6)) (t 3)))⟩

/-- `P_19_19` (ass_leg_function.cc:12854-12872). -/
def P_19_19 : Prog :=
⟨[(1, (sqrt (num 353452638))), (2, (mul x x)), (3, (sub (num 1) (t 2))), (4, (mul (t 3) (t 3))), (5, (mul (t 4) (t
    4))), (6, (mul (t 5) (t 5))), (8, (sqrt (t 3)))], (mul (mul (mul (mul (div (neg (num 5)) (num 262144)) (t 1)) (t
    8)) (t 6)) (t 3))⟩

/-- `P_19_19_Deriv` (ass_leg_function.cc:12876-12894). -/
def P_19_19_Deriv : Prog :=
⟨[(1, (sqrt (num 353452638))), (2, (mul x x)), (3, (sub (num 1) (t 2))), (4, (mul (t 3) (t 3))), (5, (mul (t 4) (t
    4))), (6, (mul (t 5) (t 5))), (7, (sqrt (t 3)))], (mul (mul (mul (mul (div (num 95) (num 262144)) (t 1)) (t 7)) (t
    6)) x)⟩

/-- The functions `P_19_m`. -/
def vals19 : List Prog := [P_19_0, P_19_1, P_19_2, P_19_3, P_19_4, P_19_5, P_19_6, P_19_7, P_19_8, P_19_9, P_19_10,
    P_19_11, P_19_12, P_19_13, P_19_14, P_19_15, P_19_16, P_19_17, P_19_18, P_19_19]

/-- The functions `P_19_m_Deriv`. -/
def ders19 : List Prog := [P_19_0_Deriv, P_19_1_Deriv, P_19_2_Deriv, P_19_3_Deriv, P_19_4_Deriv, P_19_5_Deriv,
    P_19_6_Deriv, P_19_7_Deriv, P_19_8_Deriv, P_19_9_Deriv, P_19_10_Deriv, P_19_11_Deriv, P_19_12_Deriv,
    P_19_13_Deriv, P_19_14_Deriv, P_19_15_Deriv, P_19_16_Deriv, P_19_17_Deriv, P_19_18_Deriv, P_19_19_Deriv]

/-- Certificates. -/
def certs19 : List (ℕ × ℕ × ℕ) := [(1, 1, 1), (95, 1, 2), (3990, 1, 6), (373065, 1, 12), (8580495, 1, 48), (3432198,
    1, 1440), (245157, 1, 100800), (490314, 1, 1310400), (490314, 1, 23587200), (312018, 1, 518918400), (22621305, 1,
    1037836800), (3016174, 1, 46702656000), (46750697, 1, 186810624000), (13357342, 1, 5230697472000), (73465381, 1,
    31384184832000), (43214930, 1, 533531142144000), (60500902, 1, 5335311421440000), (181502706, 1,
    32011868528640000), (3357800061, 1, 64023737057280000), (353452638, 1, 1216451004088320000)]

theorem row19 : checkRow 19 0 certs19 vals19 ders19 = true := by decide +kernel

end PiBem.Legendre.Table
