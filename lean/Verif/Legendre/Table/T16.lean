import Verif.Legendre.Check

/-! Generated by tools/leggen.py from source/ass_leg_function.cc: the functions `P_16_m` and `P_16_m_Deriv`. -/

namespace PiBem.Legendre.Table

open Ex

/-- `P_16_0` (ass_leg_function.cc:7409-7437). -/
def P_16_0 : Prog :=
⟨[(1, (mul x x)), (2, (mul (t 1) (t 1))), (3, (mul (t 2) (t 2))), (4, (mul (t 3) (t 3))), (5, (sub (t 1) (num 1))),
    (6, (mul (t 2) (t 1))), (10, (mul (t 5) (t 5))), (14, (mul (t 10) (t 5))), (18, (mul (t 10) (t 10))), (30, (mul (t
    18) (t 18)))], (add (add (add (add (add (add (add (add (t 4) (mul (mul (mul (num 60) (t 5)) (t 3)) (t 6))) (mul
    (mul (mul (div (num 1365) (num 2)) (t 10)) (t 3)) (t 2))) (mul (mul (mul (div (num 5005) (num 2)) (t 14)) (t 3))
    (t 1))) (mul (mul (div (num 225225) (num 64)) (t 18)) (t 3))) (mul (mul (mul (div (num 63063) (num 32)) (t 18)) (t
    5)) (t 6))) (mul (mul (mul (div (num 105105) (num 256)) (t 18)) (t 10)) (t 2))) (mul (mul (mul (div (num 6435)
    (num 256)) (t 18)) (t 14)) (t 1))) (mul (div (num 6435) (num 32768)) (t 30)))⟩

/-- `P_16_0_Deriv` (ass_leg_function.cc:7439-7468). -/
def P_16_0_Deriv : Prog :=
⟨[(1, (mul x x)), (2, (mul (t 1) x)), (3, (mul (t 1) (t 1))), (4, (mul (t 3) (t 2))), (5, (mul (t 3) (t 3))), (8, (sub
    (t 1) (num 1))), (9, (mul (t 3) x)), (13, (mul (t 8) (t 8))), (17, (mul (t 13) (t 8))), (21, (mul (t 13) (t
    13)))], (add (add (add (add (add (add (add (mul (mul (num 136) (t 5)) (t 4)) (mul (mul (mul (num 3570) (t 8)) (t
    5)) (t 9))) (mul (mul (mul (num 23205) (t 13)) (t 5)) (t 2))) (mul (mul (mul (div (num 425425) (num 8)) (t 17)) (t
    5)) x)) (mul (mul (div (num 765765) (num 16)) (t 21)) (t 4))) (mul (mul (mul (div (num 1072071) (num 64)) (t 21))
    (t 8)) (t 9))) (mul (mul (mul (div (num 255255) (num 128)) (t 21)) (t 13)) (t 2))) (mul (mul (mul (div (num
    109395) (num 2048)) (t 21)) (t 17)) x))⟩

/-- `P_16_1` (ass_leg_function.cc:7472-7511). -/
def P_16_1 : Prog :=
⟨[(1, (sqrt (num 17))), (2, (mul x x)), (3, (sub (num 1) (t 2))), (4, (sqrt (t 3))), (6, (mul (t 2) x)), (7, (mul (t
    2) (t 2))), (8, (mul (t 7) (t 6))), (9, (mul (t 7) (t 7))), (12, (neg (t 3))), (13, (mul (t 7) x)), (17, (mul (t
    12) (t 12))), (21, (mul (t 17) (t 12))), (25, (mul (t 17) (t 17)))], (div (mul (mul (neg (t 1)) (t 4)) (add (add
    (add (add (add (add (add (mul (mul (num 186482650301595648000) (t 9)) (t 8)) (mul (mul (mul (num
    4895169570416885760000) (t 12)) (t 9)) (t 13))) (mul (mul (mul (num 31818602207709757440000) (t 17)) (t 9)) (t
    6))) (mul (mul (mul (num 72917630059334860800000) (t 21)) (t 9)) x)) (mul (mul (num 65625867053401374720000) (t
    25)) (t 8))) (mul (mul (mul (num 22969053468690481152000) (t 25)) (t 12)) (t 13))) (mul (mul (mul (num
    2734411127225057280000) (t 25)) (t 17)) (t 6))) (mul (mul (mul (num 73243155193528320000) (t 25)) (t 21)) x)))
    (num 93241325150797824000))⟩

/-- `P_16_1_Deriv` (ass_leg_function.cc:7515-7572). -/
def P_16_1_Deriv : Prog :=
⟨[(1, (sqrt (num 17))), (2, (mul x x)), (3, (sub (num 1) (t 2))), (4, (sqrt (t 3))), (7, (mul (t 2) x)), (8, (mul (t
    2) (t 2))), (9, (mul (t 8) (t 7))), (10, (mul (t 8) (t 8))), (13, (neg (t 3))), (14, (mul (t 8) x)), (18, (mul (t
    13) (t 13))), (22, (mul (t 18) (t 13))), (26, (mul (t 18) (t 18))), (29, (mul (t 26) (t 13))), (32, (mul (t 26) (t
    18))), (35, (mul (t 26) (t 22))), (42, (mul (t 8) (t 2)))], (sub (div (mul (mul (div (t 1) (t 4)) (add (add (add
    (add (add (add (add (mul (mul (num 186482650301595648000) (t 9)) (t 10)) (mul (mul (mul (num
    4895169570416885760000) (t 13)) (t 10)) (t 14))) (mul (mul (mul (num 31818602207709757440000) (t 18)) (t 10)) (t
    7))) (mul (mul (mul (num 72917630059334860800000) (t 22)) (t 10)) x)) (mul (mul (num 65625867053401374720000) (t
    26)) (t 9))) (mul (mul (num 22969053468690481152000) (t 29)) (t 14))) (mul (mul (num 2734411127225057280000) (t
    32)) (t 7))) (mul (mul (num 73243155193528320000) (t 35)) x))) x) (num 93241325150797824000)) (div (mul (mul (t 1)
    (t 4)) (add (add (add (add (add (add (add (mul (mul (num 12587578895357706240000) (t 10)) (t 42)) (mul (mul (mul
    (num 190911613246258544640000) (t 13)) (t 10)) (t 8))) (mul (mul (mul (num 787510404640816496640000) (t 18)) (t
    10)) (t 2))) (mul (mul (num 1181265606961224744960000) (t 22)) (t 10))) (mul (mul (num 689071604060714434560000)
    (t 26)) (t 42))) (mul (mul (num 147658200870153093120000) (t 8)) (t 29))) (mul (mul (num 9228637554384568320000)
    (t 32)) (t 2))) (mul (num 73243155193528320000) (t 35)))) (num 93241325150797824000)))⟩

/-- `P_16_2` (ass_leg_function.cc:7576-7609). -/
def P_16_2 : Prog :=
⟨[(1, (sqrt (num 510))), (2, (mul x x)), (3, (sub (num 1) (t 2))), (5, (mul (t 2) (t 2))), (6, (mul (t 5) (t 2))), (7,
    (mul (t 5) (t 5))), (10, (neg (t 3))), (14, (mul (t 10) (t 10))), (18, (mul (t 14) (t 10))), (21, (mul (t 14) (t
    14)))], (div (mul (mul (t 1) (t 3)) (add (add (add (add (add (add (add (mul (mul (num 12587578895357706240000) (t
    7)) (t 6)) (mul (mul (mul (num 190911613246258544640000) (t 10)) (t 7)) (t 5))) (mul (mul (mul (num
    787510404640816496640000) (t 14)) (t 7)) (t 2))) (mul (mul (num 1181265606961224744960000) (t 18)) (t 7))) (mul
    (mul (num 689071604060714434560000) (t 21)) (t 6))) (mul (mul (mul (num 147658200870153093120000) (t 21)) (t 10))
    (t 5))) (mul (mul (mul (num 9228637554384568320000) (t 21)) (t 14)) (t 2))) (mul (mul (num 73243155193528320000)
    (t 18)) (t 21)))) (num 8391719263571804160000))⟩

/-- `P_16_2_Deriv` (ass_leg_function.cc:7613-7661). -/
def P_16_2_Deriv : Prog :=
⟨[(1, (sqrt (num 510))), (3, (mul x x)), (4, (mul (t 3) (t 3))), (5, (mul (t 4) (t 3))), (6, (mul (t 4) (t 4))), (9,
    (sub (t 3) (num 1))), (13, (mul (t 9) (t 9))), (17, (mul (t 9) (t 13))), (20, (mul (t 13) (t 13))), (23, (mul (t
    20) (t 9))), (26, (mul (t 20) (t 13))), (36, (mul (t 4) x)), (39, (mul (t 3) x))], (sub (div (mul (mul (neg (t 1))
    x) (add (add (add (add (add (add (add (mul (mul (num 12587578895357706240000) (t 6)) (t 5)) (mul (mul (mul (num
    190911613246258544640000) (t 9)) (t 6)) (t 4))) (mul (mul (mul (num 787510404640816496640000) (t 13)) (t 6)) (t
    3))) (mul (mul (num 1181265606961224744960000) (t 17)) (t 6))) (mul (mul (num 689071604060714434560000) (t 20)) (t
    5))) (mul (mul (num 147658200870153093120000) (t 23)) (t 4))) (mul (mul (num 9228637554384568320000) (t 26)) (t
    3))) (mul (mul (num 73243155193528320000) (t 20)) (t 17)))) (num 4195859631785902080000)) (div (mul (mul (t 1) (t
    9)) (add (add (add (add (add (add (mul (mul (num 558049331027524976640000) (t 6)) (t 36)) (mul (mul (mul (num
    5440980977518368522240000) (t 9)) (t 6)) (t 39))) (mul (mul (mul (num 14962697688175513436160000) (t 13)) (t 6))
    x)) (mul (mul (mul (num 14962697688175513436160000) (t 17)) (t 4)) (t 39))) (mul (mul (num
    5611011633065817538560000) (t 20)) (t 36))) (mul (mul (num 701376454133227192320000) (t 23)) (t 39))) (mul (mul
    (num 19482679281478533120000) (t 26)) x))) (num 8391719263571804160000)))⟩

/-- `P_16_3` (ass_leg_function.cc:7665-7699). -/
def P_16_3 : Prog :=
⟨[(1, (sqrt (num 33915))), (2, (mul x x)), (3, (sub (num 1) (t 2))), (4, (sqrt (t 3))), (7, (mul (t 2) (t 2))), (8,
    (mul (t 7) x)), (9, (mul (t 7) (t 7))), (12, (neg (t 3))), (13, (mul (t 2) x)), (17, (mul (t 12) (t 12))), (25,
    (mul (t 17) (t 17)))], (div (mul (mul (mul (neg (t 1)) (t 4)) (t 3)) (add (add (add (add (add (add (mul (mul (num
    558049331027524976640000) (t 9)) (t 8)) (mul (mul (mul (num 5440980977518368522240000) (t 12)) (t 9)) (t 13)))
    (mul (mul (mul (num 14962697688175513436160000) (t 17)) (t 9)) x)) (mul (mul (mul (mul (num
    14962697688175513436160000) (t 17)) (t 12)) (t 7)) (t 13))) (mul (mul (num 5611011633065817538560000) (t 25)) (t
    8))) (mul (mul (mul (num 701376454133227192320000) (t 25)) (t 12)) (t 13))) (mul (mul (mul (num
    19482679281478533120000) (t 25)) (t 17)) x))) (num 1116098662055049953280000))⟩

/-- `P_16_3_Deriv` (ass_leg_function.cc:7703-7752). -/
def P_16_3_Deriv : Prog :=
⟨[(1, (sqrt (num 33915))), (2, (mul x x)), (3, (sub (num 1) (t 2))), (4, (sqrt (t 3))), (6, (mul (t 2) (t 2))), (7,
    (mul (t 6) x)), (8, (mul (t 6) (t 6))), (11, (neg (t 3))), (12, (mul (t 2) x)), (16, (mul (t 11) (t 11))), (20,
    (mul (t 16) (t 11))), (24, (mul (t 16) (t 16))), (27, (mul (t 24) (t 11))), (30, (mul (t 24) (t 16)))], (sub (div
    (mul (mul (mul (t 1) (t 4)) (add (add (add (add (add (add (mul (mul (num 558049331027524976640000) (t 8)) (t 7))
    (mul (mul (mul (num 5440980977518368522240000) (t 11)) (t 8)) (t 12))) (mul (mul (mul (num
    14962697688175513436160000) (t 16)) (t 8)) x)) (mul (mul (mul (num 14962697688175513436160000) (t 20)) (t 6)) (t
    12))) (mul (mul (num 5611011633065817538560000) (t 24)) (t 7))) (mul (mul (num 701376454133227192320000) (t 27))
    (t 12))) (mul (mul (num 19482679281478533120000) (t 30)) x))) x) (num 372032887351683317760000)) (div (mul (mul
    (mul (t 1) (t 4)) (t 3)) (add (add (add (add (add (add (mul (mul (num 18136603258394561740800000) (t 8)) (t 6))
    (mul (mul (mul (num 119701581505404107489280000) (t 11)) (t 8)) (t 2))) (mul (mul (num
    224440465322632701542400000) (t 16)) (t 8))) (mul (mul (mul (num 149626976881755134361600000) (t 20)) (t 6)) (t
    2))) (mul (mul (num 35068822706661359616000000) (t 24)) (t 6))) (mul (mul (num 2337921513777423974400000) (t 27))
    (t 2))) (mul (num 19482679281478533120000) (t 30)))) (num 1116098662055049953280000)))⟩

/-- `P_16_4` (ass_leg_function.cc:7756-7786). -/
def P_16_4 : Prog :=
⟨[(1, (sqrt (num 88179))), (2, (mul x x)), (3, (sub (num 1) (t 2))), (4, (mul (t 3) (t 3))), (6, (mul (t 2) (t 2))),
    (7, (mul (t 6) (t 6))), (10, (neg (t 3))), (14, (mul (t 10) (t 10))), (21, (mul (t 14) (t 14)))], (div (mul (mul
    (t 1) (t 4)) (add (add (add (add (add (add (mul (mul (num 18136603258394561740800000) (t 7)) (t 6)) (mul (mul (mul
    (num 119701581505404107489280000) (t 10)) (t 7)) (t 2))) (mul (mul (num 224440465322632701542400000) (t 14)) (t
    7))) (mul (mul (mul (mul (num 149626976881755134361600000) (t 14)) (t 10)) (t 6)) (t 2))) (mul (mul (num
    35068822706661359616000000) (t 21)) (t 6))) (mul (mul (mul (num 2337921513777423974400000) (t 21)) (t 10)) (t 2)))
    (mul (mul (num 19482679281478533120000) (t 21)) (t 14)))) (num 29018565213431298785280000))⟩

/-- `P_16_4_Deriv` (ass_leg_function.cc:7790-7834). -/
def P_16_4_Deriv : Prog :=
⟨[(1, (sqrt (num 88179))), (2, (mul x x)), (3, (sub (num 1) (t 2))), (5, (mul (t 2) (t 2))), (6, (mul (t 5) (t 5))),
    (9, (neg (t 3))), (13, (mul (t 9) (t 9))), (16, (mul (t 13) (t 9))), (20, (mul (t 13) (t 13))), (23, (mul (t 20)
    (t 9))), (32, (mul (t 3) (t 3))), (34, (mul (t 2) x))], (add (div (mul (mul (mul (neg (t 1)) (t 3)) (add (add (add
    (add (add (add (mul (mul (num 18136603258394561740800000) (t 6)) (t 5)) (mul (mul (mul (num
    119701581505404107489280000) (t 9)) (t 6)) (t 2))) (mul (mul (num 224440465322632701542400000) (t 13)) (t 6)))
    (mul (mul (mul (num 149626976881755134361600000) (t 16)) (t 5)) (t 2))) (mul (mul (num 35068822706661359616000000)
    (t 20)) (t 5))) (mul (mul (num 2337921513777423974400000) (t 23)) (t 2))) (mul (mul (num 19482679281478533120000)
    (t 20)) (t 13)))) x) (num 7254641303357824696320000)) (div (mul (mul (t 1) (t 32)) (add (add (add (add (add (mul
    (mul (num 457042402111542955868160000) (t 6)) (t 34)) (mul (mul (mul (num 2094777676344571881062400000) (t 9)) (t
    6)) x)) (mul (mul (mul (num 2693285583871592418508800000) (t 13)) (t 5)) (t 34))) (mul (mul (mul (num
    1178312442943821683097600000) (t 16)) (t 5)) x)) (mul (mul (num 163654505964419678208000000) (t 20)) (t 34))) (mul
    (mul (num 4909635178932590346240000) (t 23)) x))) (num 29018565213431298785280000)))⟩

/-- `P_16_5` (ass_leg_function.cc:7838-7871). -/
def P_16_5 : Prog :=
⟨[(1, (sqrt (num 12597))), (2, (mul x x)), (3, (sub (num 1) (t 2))), (4, (mul (t 3) (t 3))), (5, (sqrt (t 3))), (8,
    (mul (t 2) x)), (9, (mul (t 2) (t 2))), (10, (mul (t 9) (t 9))), (13, (neg (t 3))), (17, (mul (t 13) (t 13))),
    (25, (mul (t 17) (t 17)))], (div (mul (mul (mul (neg (t 1)) (t 5)) (t 4)) (add (add (add (add (add (mul (mul (num
    457042402111542955868160000) (t 10)) (t 8)) (mul (mul (mul (num 2094777676344571881062400000) (t 13)) (t 10)) x))
    (mul (mul (mul (num 2693285583871592418508800000) (t 17)) (t 9)) (t 8))) (mul (mul (mul (mul (num
    1178312442943821683097600000) (t 17)) (t 13)) (t 9)) x)) (mul (mul (num 163654505964419678208000000) (t 8)) (t
    25))) (mul (mul (mul (num 4909635178932590346240000) (t 25)) (t 13)) x))) (num 174111391280587792711680000))⟩

/-- `P_16_5_Deriv` (ass_leg_function.cc:7875-7920). -/
def P_16_5_Deriv : Prog :=
⟨[(1, (sqrt (num 12597))), (2, (mul x x)), (3, (sub (num 1) (t 2))), (4, (sqrt (t 3))), (7, (mul (t 2) x)), (8, (mul
    (t 2) (t 2))), (9, (mul (t 8) (t 8))), (12, (neg (t 3))), (16, (mul (t 12) (t 12))), (20, (mul (t 16) (t 12))),
    (24, (mul (t 16) (t 16))), (27, (mul (t 24) (t 12))), (34, (mul (t 3) (t 3)))], (sub (div (mul (mul (mul (mul (t
    1) (t 4)) (t 3)) (add (add (add (add (add (mul (mul (num 457042402111542955868160000) (t 7)) (t 9)) (mul (mul (mul
    (num 2094777676344571881062400000) (t 12)) (t 9)) x)) (mul (mul (mul (num 2693285583871592418508800000) (t 16)) (t
    8)) (t 7))) (mul (mul (mul (num 1178312442943821683097600000) (t 20)) (t 8)) x)) (mul (mul (num
    163654505964419678208000000) (t 24)) (t 7))) (mul (mul (num 4909635178932590346240000) (t 27)) x))) x) (num
    34822278256117558542336000)) (div (mul (mul (mul (t 1) (t 4)) (t 34)) (add (add (add (add (add (mul (mul (num
    9217021775916116276674560000) (t 9)) (t 2)) (mul (mul (num 29626141422587516603596800000) (t 12)) (t 9))) (mul
    (mul (mul (num 25922873744764077028147200000) (t 16)) (t 8)) (t 2))) (mul (mul (num 7200798262434465841152000000)
    (t 20)) (t 8))) (mul (mul (num 540059869682584938086400000) (t 24)) (t 2))) (mul (num 4909635178932590346240000)
    (t 27)))) (num 174111391280587792711680000)))⟩

/-- `P_16_6` (ass_leg_function.cc:7924-7953). -/
def P_16_6 : Prog :=
⟨[(1, (sqrt (num 25194))), (2, (mul x x)), (3, (sub (num 1) (t 2))), (4, (mul (t 3) (t 3))), (7, (mul (t 2) (t 2))),
    (8, (mul (t 7) (t 7))), (11, (neg (t 3))), (14, (mul (t 11) (t 11))), (21, (mul (t 14) (t 14)))], (div (mul (mul
    (mul (t 1) (t 4)) (t 3)) (add (add (add (add (add (mul (mul (num 9217021775916116276674560000) (t 8)) (t 2)) (mul
    (mul (num 29626141422587516603596800000) (t 11)) (t 8))) (mul (mul (mul (num 25922873744764077028147200000) (t
    14)) (t 7)) (t 2))) (mul (mul (mul (num 7200798262434465841152000000) (t 14)) (t 11)) (t 7))) (mul (mul (num
    540059869682584938086400000) (t 21)) (t 2))) (mul (mul (num 4909635178932590346240000) (t 21)) (t 11)))) (num
    3830450608172931439656960000))⟩

/-- `P_16_6_Deriv` (ass_leg_function.cc:7957-7997). -/
def P_16_6_Deriv : Prog :=
⟨[(1, (sqrt (num 25194))), (2, (mul x x)), (3, (sub (num 1) (t 2))), (4, (mul (t 3) (t 3))), (6, (mul (t 2) (t 2))),
    (7, (mul (t 6) (t 6))), (10, (neg (t 3))), (13, (mul (t 10) (t 10))), (17, (mul (t 10) (t 13))), (20, (mul (t 13)
    (t 13))), (33, (mul (t 2) x))], (add (div (mul (mul (mul (neg (t 1)) (t 4)) (add (add (add (add (add (mul (mul
    (num 9217021775916116276674560000) (t 7)) (t 2)) (mul (mul (num 29626141422587516603596800000) (t 10)) (t 7)))
    (mul (mul (mul (num 25922873744764077028147200000) (t 13)) (t 6)) (t 2))) (mul (mul (num
    7200798262434465841152000000) (t 17)) (t 6))) (mul (mul (num 540059869682584938086400000) (t 20)) (t 2))) (mul
    (mul (num 4909635178932590346240000) (t 20)) (t 10)))) x) (num 638408434695488573276160000)) (div (mul (mul (mul
    (t 1) (t 4)) (t 3)) (add (add (add (add (mul (mul (num 151422500604336195973939200000) (t 7)) x) (mul (mul (mul
    (num 340700626359756440941363200000) (t 10)) (t 6)) (t 33))) (mul (mul (mul (num 198742032043191257215795200000)
    (t 13)) (t 6)) x)) (mul (mul (num 33123672007198542869299200000) (t 17)) (t 33))) (mul (mul (num
    1129216091154495779635200000) (t 20)) x))) (num 3830450608172931439656960000)))⟩

/-- `P_16_7` (ass_leg_function.cc:8001-8033). -/
def P_16_7 : Prog :=
⟨[(1, (sqrt (num 1448655))), (2, (mul x x)), (3, (sub (num 1) (t 2))), (4, (mul (t 3) (t 3))), (6, (sqrt (t 3))), (9,
    (mul (t 2) (t 2))), (10, (mul (t 9) (t 9))), (13, (neg (t 3))), (14, (mul (t 2) x)), (18, (mul (t 13) (t 13))),
    (25, (mul (t 18) (t 18)))], (div (mul (mul (mul (mul (neg (t 1)) (t 6)) (t 4)) (t 3)) (add (add (add (add (mul
    (mul (num 151422500604336195973939200000) (t 10)) x) (mul (mul (mul (num 340700626359756440941363200000) (t 13))
    (t 9)) (t 14))) (mul (mul (mul (num 198742032043191257215795200000) (t 18)) (t 9)) x)) (mul (mul (mul (num
    33123672007198542869299200000) (t 18)) (t 13)) (t 14))) (mul (mul (num 1129216091154495779635200000) (t 25)) x)))
    (num 440501819939887115560550400000))⟩

/-- `P_16_7_Deriv` (ass_leg_function.cc:8037-8078). -/
def P_16_7_Deriv : Prog :=
⟨[(1, (sqrt (num 1448655))), (2, (mul x x)), (3, (sub (num 1) (t 2))), (4, (mul (t 3) (t 3))), (5, (sqrt (t 3))), (8,
    (mul (t 2) (t 2))), (9, (mul (t 8) (t 8))), (12, (neg (t 3))), (13, (mul (t 2) x)), (17, (mul (t 12) (t 12))),
    (21, (mul (t 17) (t 12))), (24, (mul (t 17) (t 17)))], (sub (div (mul (mul (mul (mul (t 1) (t 5)) (t 4)) (add (add
    (add (add (mul (mul (num 151422500604336195973939200000) (t 9)) x) (mul (mul (mul (num
    340700626359756440941363200000) (t 12)) (t 8)) (t 13))) (mul (mul (mul (num 198742032043191257215795200000) (t
    17)) (t 8)) x)) (mul (mul (num 33123672007198542869299200000) (t 21)) (t 13))) (mul (mul (num
    1129216091154495779635200000) (t 24)) x))) x) (num 62928831419983873651507200000)) (div (mul (mul (mul (mul (t 1)
    (t 5)) (t 4)) (t 3)) (add (add (add (add (mul (num 2044203758158538645648179200000) (t 9)) (mul (mul (mul (num
    3179872512691060115452723200000) (t 12)) (t 8)) (t 2))) (mul (mul (num 1192452192259147543294771200000) (t 17)) (t
    8))) (mul (mul (num 108404744750831594844979200000) (t 21)) (t 2))) (mul (num 1129216091154495779635200000) (t
    24)))) (num 440501819939887115560550400000)))⟩

/-- `P_16_8` (ass_leg_function.cc:8082-8112). -/
def P_16_8 : Prog :=
⟨[(1, (sqrt (num 965770))), (2, (mul x x)), (3, (sub (num 1) (t 2))), (4, (mul (t 3) (t 3))), (5, (mul (t 4) (t 4))),
    (7, (mul (t 2) (t 2))), (8, (mul (t 7) (t 7))), (10, (neg (t 3))), (14, (mul (t 10) (t 10))), (20, (mul (t 14) (t
    14)))], (div (mul (mul (t 1) (t 5)) (add (add (add (add (mul (num 2044203758158538645648179200000) (t 8)) (mul
    (mul (mul (num 3179872512691060115452723200000) (t 10)) (t 7)) (t 2))) (mul (mul (num
    1192452192259147543294771200000) (t 14)) (t 7))) (mul (mul (mul (num 108404744750831594844979200000) (t 14)) (t
    10)) (t 2))) (mul (num 1129216091154495779635200000) (t 20)))) (num 5286021839278645386726604800000))⟩

/-- `P_16_8_Deriv` (ass_leg_function.cc:8116-8156). -/
def P_16_8_Deriv : Prog :=
⟨[(1, (sqrt (num 965770))), (2, (mul x x)), (3, (sub (num 1) (t 2))), (4, (mul (t 3) (t 3))), (7, (mul (t 2) (t 2))),
    (8, (mul (t 7) (t 7))), (10, (neg (t 3))), (14, (mul (t 10) (t 10))), (17, (mul (t 14) (t 10))), (20, (mul (t 14)
    (t 14))), (26, (mul (t 4) (t 4))), (28, (mul (t 2) x))], (add (div (mul (mul (mul (mul (neg (t 1)) (t 4)) (t 3))
    (add (add (add (add (mul (num 2044203758158538645648179200000) (t 8)) (mul (mul (mul (num
    3179872512691060115452723200000) (t 10)) (t 7)) (t 2))) (mul (mul (num 1192452192259147543294771200000) (t 14)) (t
    7))) (mul (mul (num 108404744750831594844979200000) (t 17)) (t 2))) (mul (num 1129216091154495779635200000) (t
    20)))) x) (num 660752729909830673340825600000)) (div (mul (mul (t 1) (t 26)) (add (add (add (mul (mul (num
    22713375090650429396090880000000) (t 7)) (t 28)) (mul (mul (mul (num 23849043845182950865895424000000) (t 10)) (t
    7)) x)) (mul (mul (num 5420237237541579742248960000000) (t 14)) (t 28))) (mul (mul (num
    225843218230899155927040000000) (t 17)) x))) (num 5286021839278645386726604800000)))⟩

/-- `P_16_9` (ass_leg_function.cc:8160-8189). -/
def P_16_9 : Prog :=
⟨[(1, (sqrt (num 482885))), (2, (mul x x)), (3, (sub (num 1) (t 2))), (4, (mul (t 3) (t 3))), (5, (mul (t 4) (t 4))),
    (6, (sqrt (t 3))), (9, (mul (t 2) x)), (10, (mul (t 2) (t 2))), (13, (neg (t 3))), (17, (mul (t 13) (t 13)))],
    (div (mul (mul (mul (neg (t 1)) (t 6)) (t 5)) (add (add (add (mul (mul (num 22713375090650429396090880000000) (t
    9)) (t 10)) (mul (mul (mul (num 23849043845182950865895424000000) (t 13)) (t 10)) x)) (mul (mul (num
    5420237237541579742248960000000) (t 17)) (t 9))) (mul (mul (mul (num 225843218230899155927040000000) (t 17)) (t
    13)) x))) (num 52860218392786453867266048000000))⟩

/-- `P_16_9_Deriv` (ass_leg_function.cc:8193-8230). -/
def P_16_9_Deriv : Prog :=
⟨[(1, (sqrt (num 482885))), (2, (mul x x)), (3, (sub (num 1) (t 2))), (4, (mul (t 3) (t 3))), (6, (sqrt (t 3))), (9,
    (mul (t 2) x)), (10, (mul (t 2) (t 2))), (13, (neg (t 3))), (17, (mul (t 13) (t 13))), (20, (mul (t 17) (t 13))),
    (27, (mul (t 4) (t 4)))], (sub (div (mul (mul (mul (mul (mul (t 1) (t 6)) (t 4)) (t 3)) (add (add (add (mul (mul
    (num 22713375090650429396090880000000) (t 10)) (t 9)) (mul (mul (mul (num 23849043845182950865895424000000) (t
    13)) (t 10)) x)) (mul (mul (num 5420237237541579742248960000000) (t 17)) (t 9))) (mul (mul (num
    225843218230899155927040000000) (t 20)) x))) x) (num 5873357599198494874140672000000)) (div (mul (mul (mul (t 1)
    (t 6)) (t 27)) (add (add (add (mul (mul (num 206691713324918907504427008000000) (t 10)) (t 2)) (mul (mul (num
    140926168176081073298472960000000) (t 13)) (t 10))) (mul (mul (num 17615771022010134162309120000000) (t 17)) (t
    2))) (mul (num 225843218230899155927040000000) (t 20)))) (num 52860218392786453867266048000000)))⟩

/-- `P_16_10` (ass_leg_function.cc:8234-8259). -/
def P_16_10 : Prog :=
⟨[(1, (sqrt (num 520030))), (2, (mul x x)), (3, (sub (num 1) (t 2))), (4, (mul (t 3) (t 3))), (5, (mul (t 4) (t 4))),
    (8, (mul (t 2) (t 2))), (11, (neg (t 3))), (14, (mul (t 11) (t 11)))], (div (mul (mul (mul (t 1) (t 5)) (t 3))
    (add (add (add (mul (mul (num 206691713324918907504427008000000) (t 8)) (t 2)) (mul (mul (num
    140926168176081073298472960000000) (t 11)) (t 8))) (mul (mul (num 17615771022010134162309120000000) (t 14)) (t
    2))) (mul (mul (num 225843218230899155927040000000) (t 14)) (t 11)))) (num 740043057499010354141724672000000))⟩

/-- `P_16_10_Deriv` (ass_leg_function.cc:8263-8293). -/
def P_16_10_Deriv : Prog :=
⟨[(1, (sqrt (num 520030))), (2, (mul x x)), (3, (sub (num 1) (t 2))), (4, (mul (t 3) (t 3))), (5, (mul (t 4) (t 4))),
    (7, (mul (t 2) (t 2))), (10, (neg (t 3))), (13, (mul (t 10) (t 10)))], (add (div (mul (mul (mul (neg (t 1)) (t 5))
    (add (add (add (mul (mul (num 206691713324918907504427008000000) (t 7)) (t 2)) (mul (mul (num
    140926168176081073298472960000000) (t 10)) (t 7))) (mul (mul (num 17615771022010134162309120000000) (t 13)) (t
    2))) (mul (mul (num 225843218230899155927040000000) (t 13)) (t 10)))) x) (num 74004305749901035414172467200000))
    (div (mul (mul (mul (t 1) (t 5)) (t 3)) (add (add (mul (mul (num 1522002616301675591623507968000000) (t 7)) x)
    (mul (mul (mul (num 634167756792364829843128320000000) (t 10)) (t 2)) x)) (mul (mul (num
    36586601353405663260180480000000) (t 13)) x))) (num 740043057499010354141724672000000)))⟩

/-- `P_16_11` (ass_leg_function.cc:8297-8323). -/
def P_16_11 : Prog :=
⟨[(1, (sqrt (num 260015))), (2, (mul x x)), (3, (sub (num 1) (t 2))), (4, (mul (t 3) (t 3))), (5, (mul (t 4) (t 4))),
    (7, (sqrt (t 3))), (10, (mul (t 2) (t 2))), (13, (neg (t 3))), (17, (mul (t 13) (t 13)))], (div (mul (mul (mul
    (mul (neg (t 1)) (t 7)) (t 5)) (t 3)) (add (add (mul (mul (num 1522002616301675591623507968000000) (t 10)) x) (mul
    (mul (mul (num 634167756792364829843128320000000) (t 13)) (t 2)) x)) (mul (mul (num
    36586601353405663260180480000000) (t 17)) x))) (num 6660387517491093187275522048000000))⟩

/-- `P_16_11_Deriv` (ass_leg_function.cc:8327-8358). -/
def P_16_11_Deriv : Prog :=
⟨[(1, (sqrt (num 260015))), (2, (mul x x)), (3, (sub (num 1) (t 2))), (4, (mul (t 3) (t 3))), (5, (mul (t 4) (t 4))),
    (6, (sqrt (t 3))), (9, (mul (t 2) (t 2))), (12, (neg (t 3))), (16, (mul (t 12) (t 12)))], (sub (div (mul (mul (mul
    (mul (t 1) (t 6)) (t 5)) (add (add (mul (mul (num 1522002616301675591623507968000000) (t 9)) x) (mul (mul (mul
    (num 634167756792364829843128320000000) (t 12)) (t 2)) x)) (mul (mul (num 36586601353405663260180480000000) (t
    16)) x))) x) (num 605489774317372107934138368000000)) (div (mul (mul (mul (mul (t 1) (t 6)) (t 5)) (t 3)) (add
    (add (mul (num 8878348595093107617803796480000000) (t 9)) (mul (mul (num 2048849675790717142570106880000000) (t
    12)) (t 2))) (mul (num 36586601353405663260180480000000) (t 16)))) (num 6660387517491093187275522048000000)))⟩

/-- `P_16_12` (ass_leg_function.cc:8362-8386). -/
def P_16_12 : Prog :=
⟨[(1, (sqrt (num 7429))), (2, (mul x x)), (3, (sub (num 1) (t 2))), (4, (mul (t 3) (t 3))), (5, (mul (t 4) (t 4))),
    (8, (mul (t 2) (t 2))), (10, (neg (t 3))), (13, (mul (t 10) (t 10)))], (div (mul (mul (mul (t 1) (t 5)) (t 4))
    (add (add (mul (num 8878348595093107617803796480000000) (t 8)) (mul (mul (num 2048849675790717142570106880000000)
    (t 10)) (t 2))) (mul (num 36586601353405663260180480000000) (t 13)))) (num 13320775034982186374551044096000000))⟩

/-- `P_16_12_Deriv` (ass_leg_function.cc:8390-8418). -/
def P_16_12_Deriv : Prog :=
⟨[(1, (sqrt (num 7429))), (2, (mul x x)), (3, (sub (num 1) (t 2))), (4, (mul (t 3) (t 3))), (5, (mul (t 4) (t 4))),
    (8, (mul (t 2) (t 2))), (10, (neg (t 3))), (13, (mul (t 10) (t 10)))], (add (div (mul (mul (mul (mul (neg (t 1))
    (t 5)) (t 3)) (add (add (mul (num 8878348595093107617803796480000000) (t 8)) (mul (mul (num
    2048849675790717142570106880000000) (t 10)) (t 2))) (mul (num 36586601353405663260180480000000) (t 13)))) x) (num
    1110064586248515531212587008000000)) (div (mul (mul (mul (t 1) (t 5)) (t 4)) (add (mul (mul (num
    39611093731953864756355399680000000) (t 2)) x) (mul (mul (num 4244045756995056938180935680000000) (t 10)) x)))
    (num 13320775034982186374551044096000000)))⟩

/-- `P_16_13` (ass_leg_function.cc:8422-8441). -/
def P_16_13 : Prog :=
⟨[(1, (sqrt (num 215441))), (2, (mul x x)), (3, (sub (num 1) (t 2))), (4, (mul (t 3) (t 3))), (5, (mul (t 4) (t 4))),
    (7, (sqrt (t 3)))], (div (mul (mul (mul (mul (neg (t 1)) (t 7)) (t 5)) (t 4)) (sub (mul (mul (num
    39611093731953864756355399680000000) (t 2)) x) (mul (mul (num 4244045756995056938180935680000000) (t 3)) x))) (num
    772604952028966809723960557568000000))⟩

/-- `P_16_13_Deriv` (ass_leg_function.cc:8445-8468). -/
def P_16_13_Deriv : Prog :=
⟨[(1, (sqrt (num 215441))), (2, (mul x x)), (3, (sub (num 1) (t 2))), (4, (mul (t 3) (t 3))), (5, (mul (t 4) (t 4))),
    (7, (sqrt (t 3)))], (sub (div (mul (mul (mul (mul (mul (t 1) (t 7)) (t 5)) (t 3)) (sub (mul (mul (num
    39611093731953864756355399680000000) (t 2)) x) (mul (mul (num 4244045756995056938180935680000000) (t 3)) x))) x)
    (num 59431150156074369978766196736000000)) (div (mul (mul (mul (mul (t 1) (t 7)) (t 5)) (t 4)) (sub (mul (num
    131565418466846765083609006080000000) (t 2)) (num 4244045756995056938180935680000000))) (num
    772604952028966809723960557568000000)))⟩

/-- `P_16_14` (ass_leg_function.cc:8472-8489). -/
def P_16_14 : Prog :=
⟨[(1, (sqrt (num 2154410))), (2, (mul x x)), (3, (sub (num 1) (t 2))), (4, (mul (t 3) (t 3))), (6, (mul (t 4) (t
    4)))], (div (mul (mul (mul (mul (t 1) (t 6)) (t 4)) (t 3)) (sub (mul (num 131565418466846765083609006080000000) (t
    2)) (num 4244045756995056938180935680000000))) (num 23178148560869004291718816727040000000))⟩

/-- `P_16_14_Deriv` (ass_leg_function.cc:8493-8511). -/
def P_16_14_Deriv : Prog :=
⟨[(1, (sqrt (num 2154410))), (2, (mul x x)), (3, (sub (num 1) (t 2))), (4, (mul (t 3) (t 3))), (5, (mul (t 4) (t
    4)))], (add (div (mul (mul (mul (mul (neg (t 1)) (t 5)) (t 4)) (sub (mul (num
    131565418466846765083609006080000000) (t 2)) (num 4244045756995056938180935680000000))) x) (num
    1655582040062071735122772623360000000)) (mul (mul (mul (mul (mul (div (num 93) (num 8192)) (t 1)) (t 5)) (t 4)) (t
    3)) x))⟩

/-- `P_16_15` (ass_leg_function.cc:8515-8531). -/
def P_16_15 : Prog :=
⟨[(1, (sqrt (num 33393355))), (2, (mul x x)), (3, (sub (num 1) (t 2))), (4, (mul (t 3) (t 3))), (6, (mul (t 4) (t
    4))), (8, (sqrt (t 3)))], (mul (mul (mul (mul (mul (mul (div (neg (num 3)) (num 8192)) (t 1)) (t 8)) (t 6)) (t 4))
    (t 3)) x)⟩

/-- `P_16_15_Deriv` (ass_leg_function.cc:8535-8552). -/
def P_16_15_Deriv : Prog :=
⟨[(1, (sqrt (num 33393355))), (2, (mul x x)), (3, (sub (num 1) (t 2))), (4, (mul (t 3) (t 3))), (5, (mul (t 4) (t
    4))), (7, (sqrt (t 3)))], (sub (mul (mul (mul (mul (mul (div (num 45) (num 8192)) (t 1)) (t 7)) (t 5)) (t 4)) (t
    2)) (mul (mul (mul (mul (mul (div (num 3) (num 8192)) (t 1)) (t 7)) (t 5)) (t 4)) (t 3)))⟩

/-- `P_16_16` (ass_leg_function.cc:8556-8570). -/
def P_16_16 : Prog :=
⟨[(1, (sqrt (num 66786710))), (2, (mul x x)), (4, (sq (sub (num 1) (t 2)))), (5, (mul (t 4) (t 4))), (6, (mul (t 5) (t
    5)))], (mul (mul (div (num 3) (num 65536)) (t 1)) (t 6))⟩

/-- `P_16_16_Deriv` (ass_leg_function.cc:8574-8588). -/
def P_16_16_Deriv : Prog :=
⟨[(1, (sqrt (num 66786710))), (2, (mul x x)), (3, (sub (num 1) (t 2))), (4, (mul (t 3) (t 3))), (6, (mul (t 4) (t
    4)))], (mul (mul (mul (mul (mul (div (neg (num 3)) (num 4096)) (t 1)) (t 6)) (t 4)) (t 3)) x)⟩

/-- The functions `P_16_m`. -/
def vals16 : List Prog := [P_16_0, P_16_1, P_16_2, P_16_3, P_16_4, P_16_5, P_16_6, P_16_7, P_16_8, P_16_9, P_16_10,
    P_16_11, P_16_12, P_16_13, P_16_14, P_16_15, P_16_16]

/-- The functions `P_16_m_Deriv`. -/
def ders16 : List Prog := [P_16_0_Deriv, P_16_1_Deriv, P_16_2_Deriv, P_16_3_Deriv, P_16_4_Deriv, P_16_5_Deriv,
    P_16_6_Deriv, P_16_7_Deriv, P_16_8_Deriv, P_16_9_Deriv, P_16_10_Deriv, P_16_11_Deriv, P_16_12_Deriv,
    P_16_13_Deriv, P_16_14_Deriv, P_16_15_Deriv, P_16_16_Deriv]

/-- Certificates. -/
def certs16 : List (ℕ × ℕ × ℕ) := [(1, 1, 1), (17, 1, 4), (510, 1, 12), (33915, 1, 24), (88179, 1, 240), (12597, 1,
    10080), (25194, 1, 110880), (1448655, 1, 221760), (965770, 1, 3991680), (482885, 1, 79833600), (520030, 1,
    1037836800), (260015, 1, 18681062400), (7429, 1, 1307674368000), (215441, 1, 2615348736000), (2154410, 1,
    7846046208000), (33393355, 1, 15692092416000), (66786710, 1, 62768369664000)]

theorem row16 : checkRow 16 0 certs16 vals16 ders16 = true := by decide +kernel

end PiBem.Legendre.Table
