import Verif.Legendre.Check

/-! Generated by tools/leggen.py from source/ass_leg_function.cc: the functions `P_17_m` and `P_17_m_Deriv`. -/

namespace PiBem.Legendre.Table

open Ex

/-- `P_17_0` (ass_leg_function.cc:8590-8623). -/
def P_17_0 : Prog :=
⟨[(1, (mul x x)), (2, (mul (t 1) (t 1))), (3, (mul (t 2) (t 2))), (4, (mul (t 3) (t 3))), (6, (sub (t 1) (num 1))),
    (7, (mul (t 1) x)), (8, (mul (t 2) (t 7))), (12, (mul (t 6) (t 6))), (13, (mul (t 2) x)), (17, (mul (t 12) (t
    6))), (21, (mul (t 12) (t 12))), (34, (mul (t 21) (t 21)))], (add (add (add (add (add (add (add (add (mul (t 4) x)
    (mul (mul (mul (num 68) (t 6)) (t 3)) (t 8))) (mul (mul (mul (div (num 1785) (num 2)) (t 12)) (t 3)) (t 13))) (mul
    (mul (mul (div (num 7735) (num 2)) (t 17)) (t 3)) (t 7))) (mul (mul (mul (div (num 425425) (num 64)) (t 21)) (t
    3)) x)) (mul (mul (mul (div (num 153153) (num 32)) (t 21)) (t 6)) (t 8))) (mul (mul (mul (div (num 357357) (num
    256)) (t 21)) (t 12)) (t 13))) (mul (mul (mul (div (num 36465) (num 256)) (t 21)) (t 17)) (t 7))) (mul (mul (div
    (num 109395) (num 32768)) (t 34)) x))⟩

/-- `P_17_0_Deriv` (ass_leg_function.cc:8625-8654). -/
def P_17_0_Deriv : Prog :=
⟨[(1, (mul x x)), (2, (mul (t 1) (t 1))), (3, (mul (t 2) (t 2))), (4, (mul (t 3) (t 3))), (6, (sub (t 1) (num 1))),
    (7, (mul (t 2) (t 1))), (11, (mul (t 6) (t 6))), (15, (mul (t 11) (t 6))), (19, (mul (t 11) (t 11))), (31, (mul (t
    19) (t 19)))], (add (add (add (add (add (add (add (add (mul (num 153) (t 4)) (mul (mul (mul (num 4590) (t 6)) (t
    3)) (t 7))) (mul (mul (mul (div (num 69615) (num 2)) (t 11)) (t 3)) (t 2))) (mul (mul (mul (div (num 765765) (num
    8)) (t 15)) (t 3)) (t 1))) (mul (mul (div (num 6891885) (num 64)) (t 19)) (t 3))) (mul (mul (mul (div (num
    3216213) (num 64)) (t 19)) (t 6)) (t 7))) (mul (mul (mul (div (num 2297295) (num 256)) (t 19)) (t 11)) (t 2)))
    (mul (mul (mul (div (num 984555) (num 2048)) (t 19)) (t 15)) (t 1))) (mul (div (num 109395) (num 32768)) (t 31)))⟩

/-- `P_17_1` (ass_leg_function.cc:8658-8698). -/
def P_17_1 : Prog :=
⟨[(1, (sqrt (num 34))), (2, (mul x x)), (3, (sub (num 1) (t 2))), (4, (sqrt (t 3))), (6, (mul (t 2) (t 2))), (7, (mul
    (t 6) (t 6))), (8, (mul (t 7) (t 7))), (10, (neg (t 3))), (11, (mul (t 6) (t 2))), (15, (mul (t 10) (t 10))), (19,
    (mul (t 15) (t 10))), (23, (mul (t 15) (t 15))), (35, (mul (t 23) (t 23)))], (div (mul (mul (neg (t 1)) (t 4))
    (add (add (add (add (add (add (add (add (mul (num 7132961374036033536000) (t 8)) (mul (mul (mul (num
    213988841221081006080000) (t 10)) (t 7)) (t 11))) (mul (mul (mul (num 1622748712593197629440000) (t 15)) (t 7)) (t
    6))) (mul (mul (mul (num 4462558959631293480960000) (t 19)) (t 7)) (t 2))) (mul (mul (num
    5020378829585205166080000) (t 23)) (t 7))) (mul (mul (mul (num 2342843453806429077504000) (t 23)) (t 10)) (t 11)))
    (mul (mul (mul (num 418364902465433763840000) (t 23)) (t 15)) (t 6))) (mul (mul (mul (num 22412405489219665920000)
    (t 23)) (t 19)) (t 2))) (mul (num 155641704786247680000) (t 35)))) (num 4755307582690689024000))⟩

/-- `P_17_1_Deriv` (ass_leg_function.cc:8702-8764). -/
def P_17_1_Deriv : Prog :=
⟨[(1, (sqrt (num 34))), (2, (mul x x)), (3, (sub (num 1) (t 2))), (4, (sqrt (t 3))), (7, (mul (t 2) (t 2))), (8, (mul
    (t 7) (t 7))), (9, (mul (t 8) (t 8))), (11, (neg (t 3))), (12, (mul (t 7) (t 2))), (16, (mul (t 11) (t 11))), (20,
    (mul (t 16) (t 11))), (24, (mul (t 16) (t 16))), (27, (mul (t 24) (t 11))), (30, (mul (t 24) (t 16))), (33, (mul
    (t 24) (t 20))), (36, (mul (t 24) (t 24))), (42, (mul (t 2) x)), (43, (mul (t 7) (t 42))), (46, (mul (t 7) x))],
    (sub (div (mul (mul (div (t 1) (t 4)) (add (add (add (add (add (add (add (add (mul (num 7132961374036033536000) (t
    9)) (mul (mul (mul (num 213988841221081006080000) (t 11)) (t 8)) (t 12))) (mul (mul (mul (num
    1622748712593197629440000) (t 16)) (t 8)) (t 7))) (mul (mul (mul (num 4462558959631293480960000) (t 20)) (t 8)) (t
    2))) (mul (mul (num 5020378829585205166080000) (t 24)) (t 8))) (mul (mul (num 2342843453806429077504000) (t 27))
    (t 12))) (mul (mul (num 418364902465433763840000) (t 30)) (t 7))) (mul (mul (num 22412405489219665920000) (t 33))
    (t 2))) (mul (num 155641704786247680000) (t 36)))) x) (num 4755307582690689024000)) (div (mul (mul (t 1) (t 4))
    (add (add (add (add (add (add (add (mul (mul (num 542105064426738548736000) (t 8)) (t 43)) (mul (mul (mul (num
    9486838627467924602880000) (t 11)) (t 8)) (t 46))) (mul (mul (mul (num 46248338308906132439040000) (t 16)) (t 8))
    (t 42))) (mul (mul (mul (num 84788620232994576138240000) (t 20)) (t 8)) x)) (mul (mul (num
    63591465174745932103680000) (t 24)) (t 43))) (mul (mul (num 19077439552423779631104000) (t 46)) (t 27))) (mul (mul
    (num 1987233286710810378240000) (t 30)) (t 42))) (mul (mul (num 47315078255019294720000) (t 33)) x))) (num
    4755307582690689024000)))⟩

/-- `P_17_2` (ass_leg_function.cc:8768-8805). -/
def P_17_2 : Prog :=
⟨[(1, (sqrt (num 646))), (2, (mul x x)), (3, (sub (num 1) (t 2))), (5, (mul (t 2) x)), (6, (mul (t 2) (t 2))), (7,
    (mul (t 6) (t 5))), (8, (mul (t 6) (t 6))), (11, (neg (t 3))), (12, (mul (t 6) x)), (16, (mul (t 11) (t 11))),
    (20, (mul (t 11) (t 16))), (24, (mul (t 16) (t 16)))], (div (mul (mul (t 1) (t 3)) (add (add (add (add (add (add
    (add (mul (mul (num 542105064426738548736000) (t 8)) (t 7)) (mul (mul (mul (num 9486838627467924602880000) (t 11))
    (t 8)) (t 12))) (mul (mul (mul (num 46248338308906132439040000) (t 16)) (t 8)) (t 5))) (mul (mul (mul (num
    84788620232994576138240000) (t 20)) (t 8)) x)) (mul (mul (num 63591465174745932103680000) (t 24)) (t 7))) (mul
    (mul (mul (num 19077439552423779631104000) (t 24)) (t 11)) (t 12))) (mul (mul (mul (num 1987233286710810378240000)
    (t 24)) (t 16)) (t 5))) (mul (mul (mul (num 47315078255019294720000) (t 24)) (t 20)) x))) (num
    361403376284492365824000))⟩

/-- `P_17_2_Deriv` (ass_leg_function.cc:8809-8862). -/
def P_17_2_Deriv : Prog :=
⟨[(1, (sqrt (num 646))), (3, (mul x x)), (4, (mul (t 3) x)), (5, (mul (t 3) (t 3))), (6, (mul (t 5) (t 4))), (7, (mul
    (t 5) (t 5))), (10, (sub (t 3) (num 1))), (11, (mul (t 5) x)), (15, (mul (t 10) (t 10))), (19, (mul (t 15) (t
    10))), (23, (mul (t 15) (t 15))), (26, (mul (t 23) (t 10))), (29, (mul (t 23) (t 15))), (32, (mul (t 23) (t 19))),
    (40, (mul (t 3) (t 5)))], (sub (div (mul (mul (neg (t 1)) x) (add (add (add (add (add (add (add (mul (mul (num
    542105064426738548736000) (t 7)) (t 6)) (mul (mul (mul (num 9486838627467924602880000) (t 10)) (t 7)) (t 11)))
    (mul (mul (mul (num 46248338308906132439040000) (t 15)) (t 7)) (t 4))) (mul (mul (mul (num
    84788620232994576138240000) (t 19)) (t 7)) x)) (mul (mul (num 63591465174745932103680000) (t 23)) (t 6))) (mul
    (mul (num 19077439552423779631104000) (t 26)) (t 11))) (mul (mul (num 1987233286710810378240000) (t 29)) (t 4)))
    (mul (mul (num 47315078255019294720000) (t 32)) x))) (num 180701688142246182912000)) (div (mul (mul (t 1) (t 10))
    (add (add (add (add (add (add (add (mul (mul (num 27105253221336927436800000) (t 7)) (t 40)) (mul (mul (mul (num
    308322255392707549593600000) (t 10)) (t 7)) (t 5))) (mul (mul (mul (num 1017463442795934913658880000) (t 15)) (t
    7)) (t 3))) (mul (mul (num 1271829303494918642073600000) (t 19)) (t 7))) (mul (mul (num
    635914651747459321036800000) (t 23)) (t 40))) (mul (mul (num 119233997202648622694400000) (t 26)) (t 5))) (mul
    (mul (num 6624110955702701260800000) (t 29)) (t 3))) (mul (num 47315078255019294720000) (t 32)))) (num
    361403376284492365824000)))⟩

/-- `P_17_3` (ass_leg_function.cc:8866-8901). -/
def P_17_3 : Prog :=
⟨[(1, (sqrt (num 1938))), (2, (mul x x)), (3, (sub (num 1) (t 2))), (4, (sqrt (t 3))), (7, (mul (t 2) (t 2))), (8,
    (mul (t 7) (t 2))), (9, (mul (t 7) (t 7))), (12, (neg (t 3))), (16, (mul (t 12) (t 12))), (20, (mul (t 16) (t
    12))), (23, (mul (t 16) (t 16)))], (div (mul (mul (mul (neg (t 1)) (t 4)) (t 3)) (add (add (add (add (add (add
    (add (mul (mul (num 27105253221336927436800000) (t 9)) (t 8)) (mul (mul (mul (num 308322255392707549593600000) (t
    12)) (t 9)) (t 7))) (mul (mul (mul (num 1017463442795934913658880000) (t 16)) (t 9)) (t 2))) (mul (mul (num
    1271829303494918642073600000) (t 20)) (t 9))) (mul (mul (num 635914651747459321036800000) (t 23)) (t 8))) (mul
    (mul (mul (num 119233997202648622694400000) (t 23)) (t 12)) (t 7))) (mul (mul (mul (num 6624110955702701260800000)
    (t 23)) (t 16)) (t 2))) (mul (mul (num 47315078255019294720000) (t 23)) (t 20)))) (num
    10842101288534770974720000))⟩

/-- `P_17_3_Deriv` (ass_leg_function.cc:8905-8957). -/
def P_17_3_Deriv : Prog :=
⟨[(1, (sqrt (num 1938))), (2, (mul x x)), (3, (sub (num 1) (t 2))), (4, (sqrt (t 3))), (6, (mul (t 2) (t 2))), (7,
    (mul (t 6) (t 2))), (8, (mul (t 6) (t 6))), (11, (neg (t 3))), (15, (mul (t 11) (t 11))), (19, (mul (t 15) (t
    11))), (22, (mul (t 15) (t 15))), (25, (mul (t 22) (t 11))), (28, (mul (t 22) (t 15))), (39, (mul (t 6) x)), (42,
    (mul (t 2) x))], (sub (div (mul (mul (mul (t 1) (t 4)) (add (add (add (add (add (add (add (mul (mul (num
    27105253221336927436800000) (t 8)) (t 7)) (mul (mul (mul (num 308322255392707549593600000) (t 11)) (t 8)) (t 6)))
    (mul (mul (mul (num 1017463442795934913658880000) (t 15)) (t 8)) (t 2))) (mul (mul (num
    1271829303494918642073600000) (t 19)) (t 8))) (mul (mul (num 635914651747459321036800000) (t 22)) (t 7))) (mul
    (mul (num 119233997202648622694400000) (t 25)) (t 6))) (mul (mul (num 6624110955702701260800000) (t 28)) (t 2)))
    (mul (mul (num 47315078255019294720000) (t 22)) (t 19)))) x) (num 3614033762844923658240000)) (div (mul (mul (mul
    (t 1) (t 4)) (t 3)) (add (add (add (add (add (add (mul (mul (num 996118055884132083302400000) (t 8)) (t 39)) (mul
    (mul (mul (num 7769720835896230249758720000) (t 11)) (t 8)) (t 42))) (mul (mul (mul (num
    17805610248928860989030400000) (t 15)) (t 8)) x)) (mul (mul (mul (num 15261951641939023704883200000) (t 19)) (t
    6)) (t 42))) (mul (mul (num 5007827882511242153164800000) (t 22)) (t 39))) (mul (mul (num
    556425320279026905907200000) (t 25)) (t 42))) (mul (mul (num 13910633006975672647680000) (t 28)) x))) (num
    10842101288534770974720000)))⟩

/-- `P_17_4` (ass_leg_function.cc:8961-8995). -/
def P_17_4 : Prog :=
⟨[(1, (sqrt (num 323))), (2, (mul x x)), (3, (sub (num 1) (t 2))), (4, (mul (t 3) (t 3))), (6, (mul (t 2) (t 2))), (7,
    (mul (t 6) x)), (8, (mul (t 6) (t 6))), (11, (neg (t 3))), (12, (mul (t 2) x)), (16, (mul (t 11) (t 11))), (24,
    (mul (t 16) (t 16)))], (div (mul (mul (t 1) (t 4)) (add (add (add (add (add (add (mul (mul (num
    996118055884132083302400000) (t 7)) (t 8)) (mul (mul (mul (num 7769720835896230249758720000) (t 11)) (t 8)) (t
    12))) (mul (mul (mul (num 17805610248928860989030400000) (t 16)) (t 8)) x)) (mul (mul (mul (mul (num
    15261951641939023704883200000) (t 16)) (t 11)) (t 6)) (t 12))) (mul (mul (num 5007827882511242153164800000) (t
    24)) (t 7))) (mul (mul (mul (num 556425320279026905907200000) (t 24)) (t 11)) (t 12))) (mul (mul (mul (num
    13910633006975672647680000) (t 24)) (t 16)) x))) (num 75894709019743396823040000))⟩

/-- `P_17_4_Deriv` (ass_leg_function.cc:8999-9048). -/
def P_17_4_Deriv : Prog :=
⟨[(1, (sqrt (num 323))), (2, (mul x x)), (3, (sub (num 1) (t 2))), (5, (mul (t 2) (t 2))), (6, (mul (t 5) x)), (7,
    (mul (t 5) (t 5))), (10, (neg (t 3))), (11, (mul (t 2) x)), (15, (mul (t 10) (t 10))), (19, (mul (t 15) (t 10))),
    (23, (mul (t 15) (t 15))), (26, (mul (t 23) (t 10))), (29, (mul (t 23) (t 15))), (36, (mul (t 3) (t 3)))], (add
    (div (mul (mul (mul (neg (t 1)) (t 3)) (add (add (add (add (add (add (mul (mul (num 996118055884132083302400000)
    (t 7)) (t 6)) (mul (mul (mul (num 7769720835896230249758720000) (t 10)) (t 7)) (t 11))) (mul (mul (mul (num
    17805610248928860989030400000) (t 15)) (t 7)) x)) (mul (mul (mul (num 15261951641939023704883200000) (t 19)) (t
    5)) (t 11))) (mul (mul (num 5007827882511242153164800000) (t 23)) (t 6))) (mul (mul (num
    556425320279026905907200000) (t 26)) (t 11))) (mul (mul (num 13910633006975672647680000) (t 29)) x))) x) (num
    18973677254935849205760000)) (div (mul (mul (t 1) (t 36)) (add (add (add (add (add (add (mul (mul (num
    28488976398286177582448640000) (t 7)) (t 5)) (mul (mul (mul (num 156689370190573976703467520000) (t 10)) (t 7)) (t
    2))) (mul (mul (num 251822202091993891130572800000) (t 15)) (t 7))) (mul (mul (mul (num
    146896284553663103159500800000) (t 19)) (t 5)) (t 2))) (mul (mul (num 30603392615346479824896000000) (t 23)) (t
    5))) (mul (mul (num 1836203556920788789493760000) (t 26)) (t 2))) (mul (num 13910633006975672647680000) (t 29))))
    (num 75894709019743396823040000)))⟩

/-- `P_17_5` (ass_leg_function.cc:9052-9084). -/
def P_17_5 : Prog :=
⟨[(1, (sqrt (num 92378))), (2, (mul x x)), (3, (sub (num 1) (t 2))), (4, (mul (t 3) (t 3))), (5, (sqrt (t 3))), (8,
    (mul (t 2) (t 2))), (9, (mul (t 8) (t 8))), (12, (neg (t 3))), (16, (mul (t 12) (t 12))), (23, (mul (t 16) (t
    16)))], (div (mul (mul (mul (neg (t 1)) (t 5)) (t 4)) (add (add (add (add (add (add (mul (mul (num
    28488976398286177582448640000) (t 9)) (t 8)) (mul (mul (mul (num 156689370190573976703467520000) (t 12)) (t 9)) (t
    2))) (mul (mul (num 251822202091993891130572800000) (t 16)) (t 9))) (mul (mul (mul (mul (num
    146896284553663103159500800000) (t 16)) (t 12)) (t 8)) (t 2))) (mul (mul (num 30603392615346479824896000000) (t
    23)) (t 8))) (mul (mul (mul (num 1836203556920788789493760000) (t 23)) (t 12)) (t 2))) (mul (mul (num
    13910633006975672647680000) (t 23)) (t 16)))) (num 21705886779646611491389440000))⟩

/-- `P_17_5_Deriv` (ass_leg_function.cc:9088-9134). -/
def P_17_5_Deriv : Prog :=
⟨[(1, (sqrt (num 92378))), (2, (mul x x)), (3, (sub (num 1) (t 2))), (4, (sqrt (t 3))), (7, (mul (t 2) (t 2))), (8,
    (mul (t 7) (t 7))), (11, (neg (t 3))), (15, (mul (t 11) (t 11))), (18, (mul (t 11) (t 15))), (22, (mul (t 15) (t
    15))), (25, (mul (t 22) (t 11))), (34, (mul (t 3) (t 3))), (37, (mul (t 2) x))], (sub (div (mul (mul (mul (mul (t
    1) (t 4)) (t 3)) (add (add (add (add (add (add (mul (mul (num 28488976398286177582448640000) (t 7)) (t 8)) (mul
    (mul (mul (num 156689370190573976703467520000) (t 11)) (t 8)) (t 2))) (mul (mul (num
    251822202091993891130572800000) (t 15)) (t 8))) (mul (mul (mul (num 146896284553663103159500800000) (t 18)) (t 7))
    (t 2))) (mul (mul (num 30603392615346479824896000000) (t 22)) (t 7))) (mul (mul (num 1836203556920788789493760000)
    (t 25)) (t 2))) (mul (mul (num 13910633006975672647680000) (t 22)) (t 15)))) x) (num
    4341177355929322298277888000)) (div (mul (mul (mul (t 1) (t 4)) (t 34)) (add (add (add (add (add (mul (mul (num
    655246457160582084396318720000) (t 8)) (t 37)) (mul (mul (mul (num 2574182510273715331556966400000) (t 11)) (t 8))
    x)) (mul (mul (mul (num 2895955324057929748001587200000) (t 15)) (t 7)) (t 37))) (mul (mul (mul (num
    1126204848244750457556172800000) (t 18)) (t 7)) x)) (mul (mul (num 140775606030593807194521600000) (t 22)) (t
    37))) (mul (mul (num 3839334709925285650759680000) (t 25)) x))) (num 21705886779646611491389440000)))⟩

/-- `P_17_6` (ass_leg_function.cc:9138-9169). -/
def P_17_6 : Prog :=
⟨[(1, (sqrt (num 6374082))), (2, (mul x x)), (3, (sub (num 1) (t 2))), (4, (mul (t 3) (t 3))), (7, (mul (t 2) x)), (8,
    (mul (t 2) (t 2))), (9, (mul (t 8) (t 8))), (12, (neg (t 3))), (16, (mul (t 12) (t 12))), (24, (mul (t 16) (t
    16)))], (div (mul (mul (mul (t 1) (t 4)) (t 3)) (add (add (add (add (add (mul (mul (num
    655246457160582084396318720000) (t 7)) (t 9)) (mul (mul (mul (num 2574182510273715331556966400000) (t 12)) (t 9))
    x)) (mul (mul (mul (num 2895955324057929748001587200000) (t 16)) (t 8)) (t 7))) (mul (mul (mul (mul (num
    1126204848244750457556172800000) (t 16)) (t 12)) (t 8)) x)) (mul (mul (num 140775606030593807194521600000) (t 24))
    (t 7))) (mul (mul (mul (num 3839334709925285650759680000) (t 24)) (t 12)) x))) (num
    2995412375591232385811742720000))⟩

/-- `P_17_6_Deriv` (ass_leg_function.cc:9173-9216). -/
def P_17_6_Deriv : Prog :=
⟨[(1, (sqrt (num 6374082))), (2, (mul x x)), (3, (sub (num 1) (t 2))), (4, (mul (t 3) (t 3))), (6, (mul (t 2) x)), (7,
    (mul (t 2) (t 2))), (8, (mul (t 7) (t 7))), (11, (neg (t 3))), (15, (mul (t 11) (t 11))), (19, (mul (t 15) (t
    11))), (23, (mul (t 15) (t 15))), (26, (mul (t 23) (t 11)))], (add (div (mul (mul (mul (neg (t 1)) (t 4)) (add
    (add (add (add (add (mul (mul (num 655246457160582084396318720000) (t 8)) (t 6)) (mul (mul (mul (num
    2574182510273715331556966400000) (t 11)) (t 8)) x)) (mul (mul (mul (num 2895955324057929748001587200000) (t 15))
    (t 7)) (t 6))) (mul (mul (mul (num 1126204848244750457556172800000) (t 19)) (t 7)) x)) (mul (mul (num
    140775606030593807194521600000) (t 23)) (t 6))) (mul (mul (num 3839334709925285650759680000) (t 26)) x))) x) (num
    499235395931872064301957120000)) (div (mul (mul (mul (t 1) (t 4)) (t 3)) (add (add (add (add (add (mul (mul (num
    12356076049313833591473438720000) (t 2)) (t 8)) (mul (mul (num 34751463888695156976019046400000) (t 11)) (t 8)))
    (mul (mul (mul (num 27028916357874010981348147200000) (t 15)) (t 7)) (t 2))) (mul (mul (num
    6757229089468502745337036800000) (t 19)) (t 7))) (mul (mul (num 460720165191034278091161600000) (t 23)) (t 2)))
    (mul (num 3839334709925285650759680000) (t 26)))) (num 2995412375591232385811742720000)))⟩

/-- `P_17_7` (ass_leg_function.cc:9220-9251). -/
def P_17_7 : Prog :=
⟨[(1, (sqrt (num 96577))), (2, (mul x x)), (3, (sub (num 1) (t 2))), (4, (mul (t 3) (t 3))), (6, (sqrt (t 3))), (9,
    (mul (t 2) (t 2))), (10, (mul (t 9) (t 9))), (13, (neg (t 3))), (16, (mul (t 13) (t 13))), (23, (mul (t 16) (t
    16)))], (div (mul (mul (mul (mul (neg (t 1)) (t 6)) (t 4)) (t 3)) (add (add (add (add (add (mul (mul (num
    12356076049313833591473438720000) (t 10)) (t 2)) (mul (mul (num 34751463888695156976019046400000) (t 13)) (t 10)))
    (mul (mul (mul (num 27028916357874010981348147200000) (t 16)) (t 9)) (t 2))) (mul (mul (mul (num
    6757229089468502745337036800000) (t 16)) (t 13)) (t 9))) (mul (mul (num 460720165191034278091161600000) (t 23)) (t
    2))) (mul (mul (num 3839334709925285650759680000) (t 23)) (t 13)))) (num 5990824751182464771623485440000))⟩

/-- `P_17_7_Deriv` (ass_leg_function.cc:9255-9297). -/
def P_17_7_Deriv : Prog :=
⟨[(1, (sqrt (num 96577))), (2, (mul x x)), (3, (sub (num 1) (t 2))), (4, (mul (t 3) (t 3))), (5, (sqrt (t 3))), (8,
    (mul (t 2) (t 2))), (9, (mul (t 8) (t 8))), (12, (neg (t 3))), (15, (mul (t 12) (t 12))), (19, (mul (t 15) (t
    12))), (22, (mul (t 15) (t 15))), (36, (mul (t 2) x))], (sub (div (mul (mul (mul (mul (t 1) (t 5)) (t 4)) (add
    (add (add (add (add (mul (mul (num 12356076049313833591473438720000) (t 9)) (t 2)) (mul (mul (num
    34751463888695156976019046400000) (t 12)) (t 9))) (mul (mul (mul (num 27028916357874010981348147200000) (t 15)) (t
    8)) (t 2))) (mul (mul (num 6757229089468502745337036800000) (t 19)) (t 8))) (mul (mul (num
    460720165191034278091161600000) (t 22)) (t 2))) (mul (mul (num 3839334709925285650759680000) (t 22)) (t 12)))) x)
    (num 855832107311780681660497920000)) (div (mul (mul (mul (mul (t 1) (t 5)) (t 4)) (t 3)) (add (add (add (add (mul
    (mul (num 193063688270528649866772480000000) (t 9)) x) (mul (mul (mul (num 386127376541057299733544960000000) (t
    12)) (t 8)) (t 36))) (mul (mul (mul (num 202716872684055082360111104000000) (t 15)) (t 8)) x)) (mul (mul (num
    30714677679402285206077440000000) (t 19)) (t 36))) (mul (mul (num 959833677481321412689920000000) (t 22)) x)))
    (num 5990824751182464771623485440000)))⟩

/-- `P_17_8` (ass_leg_function.cc:9301-9333). -/
def P_17_8 : Prog :=
⟨[(1, (sqrt (num 965770))), (2, (mul x x)), (3, (sub (num 1) (t 2))), (4, (mul (t 3) (t 3))), (5, (mul (t 4) (t 4))),
    (7, (mul (t 2) (t 2))), (8, (mul (t 7) (t 7))), (11, (neg (t 3))), (12, (mul (t 2) x)), (16, (mul (t 11) (t 11))),
    (23, (mul (t 16) (t 16)))], (div (mul (mul (t 1) (t 5)) (add (add (add (add (mul (mul (num
    193063688270528649866772480000000) (t 8)) x) (mul (mul (mul (num 386127376541057299733544960000000) (t 11)) (t 7))
    (t 12))) (mul (mul (mul (num 202716872684055082360111104000000) (t 16)) (t 7)) x)) (mul (mul (mul (num
    30714677679402285206077440000000) (t 16)) (t 11)) (t 12))) (mul (mul (num 959833677481321412689920000000) (t 23))
    x))) (num 299541237559123238581174272000000))⟩

/-- `P_17_8_Deriv` (ass_leg_function.cc:9337-9378). -/
def P_17_8_Deriv : Prog :=
⟨[(1, (sqrt (num 965770))), (2, (mul x x)), (3, (sub (num 1) (t 2))), (4, (mul (t 3) (t 3))), (7, (mul (t 2) (t 2))),
    (8, (mul (t 7) (t 7))), (11, (neg (t 3))), (12, (mul (t 2) x)), (16, (mul (t 11) (t 11))), (20, (mul (t 16) (t
    11))), (23, (mul (t 16) (t 16))), (30, (mul (t 4) (t 4)))], (add (div (mul (mul (mul (mul (neg (t 1)) (t 4)) (t
    3)) (add (add (add (add (mul (mul (num 193063688270528649866772480000000) (t 8)) x) (mul (mul (mul (num
    386127376541057299733544960000000) (t 11)) (t 7)) (t 12))) (mul (mul (mul (num 202716872684055082360111104000000)
    (t 16)) (t 7)) x)) (mul (mul (num 30714677679402285206077440000000) (t 20)) (t 12))) (mul (mul (num
    959833677481321412689920000000) (t 23)) x))) x) (num 37442654694890404822646784000000)) (div (mul (mul (t 1) (t
    30)) (add (add (add (add (mul (num 2509827947516872448268042240000000) (t 8)) (mul (mul (mul (num
    3513759126523621427575259136000000) (t 11)) (t 7)) (t 2))) (mul (mul (num 1197872429496689123037020160000000) (t
    16)) (t 7))) (mul (mul (num 99822702458057426919751680000000) (t 20)) (t 2))) (mul (num
    959833677481321412689920000000) (t 23)))) (num 299541237559123238581174272000000)))⟩

/-- `P_17_9` (ass_leg_function.cc:9382-9414). -/
def P_17_9 : Prog :=
⟨[(1, (sqrt (num 37145))), (2, (mul x x)), (3, (sub (num 1) (t 2))), (4, (mul (t 3) (t 3))), (5, (mul (t 4) (t 4))),
    (6, (sqrt (t 3))), (9, (mul (t 2) (t 2))), (10, (mul (t 9) (t 9))), (12, (neg (t 3))), (16, (mul (t 12) (t 12))),
    (22, (mul (t 16) (t 16)))], (div (mul (mul (mul (neg (t 1)) (t 6)) (t 5)) (add (add (add (add (mul (num
    2509827947516872448268042240000000) (t 10)) (mul (mul (mul (num 3513759126523621427575259136000000) (t 12)) (t 9))
    (t 2))) (mul (mul (num 1197872429496689123037020160000000) (t 16)) (t 9))) (mul (mul (mul (num
    99822702458057426919751680000000) (t 16)) (t 12)) (t 2))) (mul (num 959833677481321412689920000000) (t 22)))) (num
    898623712677369715743522816000000))⟩

/-- `P_17_9_Deriv` (ass_leg_function.cc:9418-9460). -/
def P_17_9_Deriv : Prog :=
⟨[(1, (sqrt (num 37145))), (2, (mul x x)), (3, (sub (num 1) (t 2))), (4, (mul (t 3) (t 3))), (6, (sqrt (t 3))), (9,
    (mul (t 2) (t 2))), (10, (mul (t 9) (t 9))), (12, (neg (t 3))), (16, (mul (t 12) (t 12))), (19, (mul (t 16) (t
    12))), (22, (mul (t 16) (t 16))), (28, (mul (t 4) (t 4))), (31, (mul (t 2) x))], (sub (div (mul (mul (mul (mul
    (mul (t 1) (t 6)) (t 4)) (t 3)) (add (add (add (add (mul (num 2509827947516872448268042240000000) (t 10)) (mul
    (mul (mul (num 3513759126523621427575259136000000) (t 12)) (t 9)) (t 2))) (mul (mul (num
    1197872429496689123037020160000000) (t 16)) (t 9))) (mul (mul (num 99822702458057426919751680000000) (t 19)) (t
    2))) (mul (num 959833677481321412689920000000) (t 22)))) x) (num 99847079186374412860391424000000)) (div (mul (mul
    (mul (t 1) (t 6)) (t 28)) (add (add (add (mul (mul (num 27106141833182222441294856192000000) (t 9)) (t 31)) (mul
    (mul (mul (num 25874044477128485057599635456000000) (t 12)) (t 9)) x)) (mul (mul (num
    5390425932735101053666590720000000) (t 16)) (t 31))) (mul (mul (num 207324074335965425141022720000000) (t 19))
    x))) (num 898623712677369715743522816000000)))⟩

/-- `P_17_10` (ass_leg_function.cc:9464-9491). -/
def P_17_10 : Prog :=
⟨[(1, (sqrt (num 222870))), (2, (mul x x)), (3, (sub (num 1) (t 2))), (4, (mul (t 3) (t 3))), (5, (mul (t 4) (t 4))),
    (8, (mul (t 2) x)), (9, (mul (t 2) (t 2))), (12, (neg (t 3))), (16, (mul (t 12) (t 12)))], (div (mul (mul (mul (t
    1) (t 5)) (t 3)) (add (add (add (mul (mul (num 27106141833182222441294856192000000) (t 9)) (t 8)) (mul (mul (mul
    (num 25874044477128485057599635456000000) (t 12)) (t 9)) x)) (mul (mul (num 5390425932735101053666590720000000) (t
    16)) (t 8))) (mul (mul (mul (num 207324074335965425141022720000000) (t 16)) (t 12)) x))) (num
    32350453656385309766766821376000000))⟩

/-- `P_17_10_Deriv` (ass_leg_function.cc:9495-9530). -/
def P_17_10_Deriv : Prog :=
⟨[(1, (sqrt (num 222870))), (2, (mul x x)), (3, (sub (num 1) (t 2))), (4, (mul (t 3) (t 3))), (5, (mul (t 4) (t 4))),
    (7, (mul (t 2) x)), (8, (mul (t 2) (t 2))), (11, (neg (t 3))), (15, (mul (t 11) (t 11))), (18, (mul (t 15) (t
    11)))], (add (div (mul (mul (mul (neg (t 1)) (t 5)) (add (add (add (mul (mul (num
    27106141833182222441294856192000000) (t 8)) (t 7)) (mul (mul (mul (num 25874044477128485057599635456000000) (t
    11)) (t 8)) x)) (mul (mul (num 5390425932735101053666590720000000) (t 15)) (t 7))) (mul (mul (num
    207324074335965425141022720000000) (t 18)) x))) x) (num 3235045365638530976676682137600000)) (div (mul (mul (mul
    (t 1) (t 5)) (t 3)) (add (add (add (mul (mul (num 241491081786532527204263264256000000) (t 2)) (t 8)) (mul (mul
    (num 150931926116582829502664540160000000) (t 11)) (t 8))) (mul (mul (num 17415222244221095711845908480000000) (t
    2)) (t 15))) (mul (num 207324074335965425141022720000000) (t 18)))) (num 32350453656385309766766821376000000)))⟩

/-- `P_17_11` (ass_leg_function.cc:9534-9561). -/
def P_17_11 : Prog :=
⟨[(1, (sqrt (num 222870))), (2, (mul x x)), (3, (sub (num 1) (t 2))), (4, (mul (t 3) (t 3))), (5, (mul (t 4) (t 4))),
    (7, (sqrt (t 3))), (10, (mul (t 2) (t 2))), (13, (neg (t 3))), (16, (mul (t 13) (t 13)))], (div (mul (mul (mul
    (mul (neg (t 1)) (t 7)) (t 5)) (t 3)) (add (add (add (mul (mul (num 241491081786532527204263264256000000) (t 10))
    (t 2)) (mul (mul (num 150931926116582829502664540160000000) (t 13)) (t 10))) (mul (mul (num
    17415222244221095711845908480000000) (t 16)) (t 2))) (mul (mul (num 207324074335965425141022720000000) (t 16)) (t
    13)))) (num 452906351189394336734735499264000000))⟩

/-- `P_17_11_Deriv` (ass_leg_function.cc:9565-9597). -/
def P_17_11_Deriv : Prog :=
⟨[(1, (sqrt (num 222870))), (2, (mul x x)), (3, (sub (num 1) (t 2))), (4, (mul (t 3) (t 3))), (5, (mul (t 4) (t 4))),
    (6, (sqrt (t 3))), (9, (mul (t 2) (t 2))), (12, (neg (t 3))), (15, (mul (t 12) (t 12)))], (sub (div (mul (mul (mul
    (mul (t 1) (t 6)) (t 5)) (add (add (add (mul (mul (num 241491081786532527204263264256000000) (t 9)) (t 2)) (mul
    (mul (num 150931926116582829502664540160000000) (t 12)) (t 9))) (mul (mul (num
    17415222244221095711845908480000000) (t 15)) (t 2))) (mul (mul (num 207324074335965425141022720000000) (t 15)) (t
    12)))) x) (num 41173304653581303339521409024000000)) (div (mul (mul (mul (mul (t 1) (t 6)) (t 5)) (t 3)) (add (add
    (mul (mul (num 1750810342952360822230908665856000000) (t 9)) x) (mul (mul (mul (num
    673388593443215700858041794560000000) (t 12)) (t 2)) x)) (mul (mul (num 36074388934457983974537953280000000) (t
    15)) x))) (num 452906351189394336734735499264000000)))⟩

/-- `P_17_12` (ass_leg_function.cc:9601-9625). -/
def P_17_12 : Prog :=
⟨[(1, (sqrt (num 1077205))), (2, (mul x x)), (3, (sub (num 1) (t 2))), (4, (mul (t 3) (t 3))), (5, (mul (t 4) (t 4))),
    (8, (mul (t 2) (t 2))), (11, (neg (t 3))), (15, (mul (t 11) (t 11)))], (div (mul (mul (mul (t 1) (t 5)) (t 4))
    (add (add (mul (mul (num 1750810342952360822230908665856000000) (t 8)) x) (mul (mul (mul (num
    673388593443215700858041794560000000) (t 11)) (t 2)) x)) (mul (mul (num 36074388934457983974537953280000000) (t
    15)) x))) (num 13134284184492435765307329478656000000))⟩

/-- `P_17_12_Deriv` (ass_leg_function.cc:9629-9658). -/
def P_17_12_Deriv : Prog :=
⟨[(1, (sqrt (num 1077205))), (2, (mul x x)), (3, (sub (num 1) (t 2))), (4, (mul (t 3) (t 3))), (5, (mul (t 4) (t 4))),
    (8, (mul (t 2) (t 2))), (11, (neg (t 3))), (15, (mul (t 11) (t 11)))], (add (div (mul (mul (mul (mul (neg (t 1))
    (t 5)) (t 3)) (add (add (mul (mul (num 1750810342952360822230908665856000000) (t 8)) x) (mul (mul (mul (num
    673388593443215700858041794560000000) (t 11)) (t 2)) x)) (mul (mul (num 36074388934457983974537953280000000) (t
    15)) x))) x) (num 1094523682041036313775610789888000000)) (div (mul (mul (mul (t 1) (t 5)) (t 4)) (add (add (mul
    (num 10100828901648235512870626918400000000) (t 8)) (mul (mul (num 2164463336067479038472277196800000000) (t 11))
    (t 2))) (mul (num 36074388934457983974537953280000000) (t 15)))) (num 13134284184492435765307329478656000000)))⟩

/-- `P_17_13` (ass_leg_function.cc:9662-9688). -/
def P_17_13 : Prog :=
⟨[(1, (sqrt (num 6463230))), (2, (mul x x)), (3, (sub (num 1) (t 2))), (4, (mul (t 3) (t 3))), (5, (mul (t 4) (t 4))),
    (7, (sqrt (t 3))), (10, (mul (t 2) (t 2))), (12, (neg (t 3))), (15, (mul (t 12) (t 12)))], (div (mul (mul (mul
    (mul (neg (t 1)) (t 7)) (t 5)) (t 4)) (add (add (mul (num 10100828901648235512870626918400000000) (t 10)) (mul
    (mul (num 2164463336067479038472277196800000000) (t 12)) (t 2))) (mul (num 36074388934457983974537953280000000) (t
    15)))) (num 394028525534773072959219884359680000000))⟩

/-- `P_17_13_Deriv` (ass_leg_function.cc:9692-9722). -/
def P_17_13_Deriv : Prog :=
⟨[(1, (sqrt (num 6463230))), (2, (mul x x)), (3, (sub (num 1) (t 2))), (4, (mul (t 3) (t 3))), (5, (mul (t 4) (t 4))),
    (7, (sqrt (t 3))), (10, (mul (t 2) (t 2))), (12, (neg (t 3))), (15, (mul (t 12) (t 12)))], (sub (div (mul (mul
    (mul (mul (mul (t 1) (t 7)) (t 5)) (t 3)) (add (add (mul (num 10100828901648235512870626918400000000) (t 10)) (mul
    (mul (num 2164463336067479038472277196800000000) (t 12)) (t 2))) (mul (num 36074388934457983974537953280000000) (t
    15)))) x) (num 30309886579597928689170760335360000000)) (div (mul (mul (mul (mul (t 1) (t 7)) (t 5)) (t 4)) (add
    (mul (mul (num 44732242278727900128427062067200000000) (t 2)) x) (mul (mul (num
    4473224227872790012842706206720000000) (t 12)) x))) (num 394028525534773072959219884359680000000)))⟩

/-- `P_17_14` (ass_leg_function.cc:9726-9743). -/
def P_17_14 : Prog :=
⟨[(1, (sqrt (num 200360130))), (2, (mul x x)), (3, (sub (num 1) (t 2))), (4, (mul (t 3) (t 3))), (6, (mul (t 4) (t
    4)))], (div (mul (mul (mul (mul (t 1) (t 6)) (t 4)) (t 3)) (sub (mul (mul (num
    44732242278727900128427062067200000000) (t 2)) x) (mul (mul (num 4473224227872790012842706206720000000) (t 3))
    x))) (num 24429768583155930523471632830300160000000))⟩

/-- `P_17_14_Deriv` (ass_leg_function.cc:9747-9768). -/
def P_17_14_Deriv : Prog :=
⟨[(1, (sqrt (num 200360130))), (2, (mul x x)), (3, (sub (num 1) (t 2))), (4, (mul (t 3) (t 3))), (5, (mul (t 4) (t
    4)))], (add (div (mul (mul (mul (mul (neg (t 1)) (t 5)) (t 4)) (sub (mul (mul (num
    44732242278727900128427062067200000000) (t 2)) x) (mul (mul (num 4473224227872790012842706206720000000) (t 3))
    x))) x) (num 1744983470225423608819402345021440000000)) (div (mul (mul (mul (mul (t 1) (t 5)) (t 4)) (t 3)) (sub
    (mul (num 147616399519802070423809304821760000000) (t 2)) (num 4473224227872790012842706206720000000))) (num
    24429768583155930523471632830300160000000)))⟩

/-- `P_17_15` (ass_leg_function.cc:9772-9791). -/
def P_17_15 : Prog :=
⟨[(1, (sqrt (num 33393355))), (2, (mul x x)), (3, (sub (num 1) (t 2))), (4, (mul (t 3) (t 3))), (6, (mul (t 4) (t
    4))), (8, (sqrt (t 3)))], (div (mul (mul (mul (mul (mul (neg (t 1)) (t 8)) (t 6)) (t 4)) (t 3)) (sub (mul (num
    147616399519802070423809304821760000000) (t 2)) (num 4473224227872790012842706206720000000))) (num
    97719074332623722093886531321200640000000))⟩

/-- `P_17_15_Deriv` (ass_leg_function.cc:9795-9815). -/
def P_17_15_Deriv : Prog :=
⟨[(1, (sqrt (num 33393355))), (2, (mul x x)), (3, (sub (num 1) (t 2))), (4, (mul (t 3) (t 3))), (5, (mul (t 4) (t
    4))), (7, (sqrt (t 3)))], (sub (div (mul (mul (mul (mul (mul (t 1) (t 7)) (t 5)) (t 4)) (sub (mul (num
    147616399519802070423809304821760000000) (t 2)) (num 4473224227872790012842706206720000000))) x) (num
    6514604955508248139592435421413376000000)) (mul (mul (mul (mul (mul (mul (div (num 99) (num 32768)) (t 1)) (t 7))
    (t 5)) (t 4)) (t 3)) x))⟩

/-- `P_17_16` (ass_leg_function.cc:9819-9833). -/
def P_17_16 : Prog :=
⟨[(1, (sqrt (num 2203961430))), (2, (mul x x)), (4, (sq (sub (num 1) (t 2)))), (5, (mul (t 4) (t 4))), (6, (mul (t 5)
    (t 5)))], (mul (mul (mul (div (num 3) (num 65536)) (t 1)) (t 6)) x)⟩

/-- `P_17_16_Deriv` (ass_leg_function.cc:9837-9854). -/
def P_17_16_Deriv : Prog :=
⟨[(1, (sqrt (num 2203961430))), (2, (mul x x)), (3, (sub (num 1) (t 2))), (4, (mul (t 3) (t 3))), (6, (mul (t 4) (t
    4))), (11, (mul (t 6) (t 6)))], (add (mul (mul (mul (mul (mul (div (neg (num 3)) (num 4096)) (t 1)) (t 6)) (t 4))
    (t 3)) (t 2)) (mul (mul (div (num 3) (num 65536)) (t 1)) (t 11)))⟩

/-- `P_17_17` (ass_leg_function.cc:9858-9876). -/
def P_17_17 : Prog :=
⟨[(1, (sqrt (num 64822395))), (2, (mul x x)), (3, (sub (num 1) (t 2))), (4, (mul (t 3) (t 3))), (5, (mul (t 4) (t
    4))), (6, (mul (t 5) (t 5))), (7, (sqrt (t 3)))], (mul (mul (mul (div (neg (num 3)) (num 65536)) (t 1)) (t 7)) (t
    6))⟩

/-- `P_17_17_Deriv` (ass_leg_function.cc:9880-9896). -/
def P_17_17_Deriv : Prog :=
⟨[(1, (sqrt (num 64822395))), (2, (mul x x)), (3, (sub (num 1) (t 2))), (4, (mul (t 3) (t 3))), (6, (mul (t 4) (t
    4))), (8, (sqrt (t 3)))], (mul (mul (mul (mul (mul (mul (div (num 51) (num 65536)) (t 1)) (t 8)) (t 6)) (t 4)) (t
    3)) x)⟩

/-- The functions `P_17_m`. -/
def vals17 : List Prog := [P_17_0, P_17_1, P_17_2, P_17_3, P_17_4, P_17_5, P_17_6, P_17_7, P_17_8, P_17_9, P_17_10,
    P_17_11, P_17_12, P_17_13, P_17_14, P_17_15, P_17_16, P_17_17]

/-- The functions `P_17_m_Deriv`. -/
def ders17 : List Prog := [P_17_0_Deriv, P_17_1_Deriv, P_17_2_Deriv, P_17_3_Deriv, P_17_4_Deriv, P_17_5_Deriv,
    P_17_6_Deriv, P_17_7_Deriv, P_17_8_Deriv, P_17_9_Deriv, P_17_10_Deriv, P_17_11_Deriv, P_17_12_Deriv,
    P_17_13_Deriv, P_17_14_Deriv, P_17_15_Deriv, P_17_16_Deriv, P_17_17_Deriv]

/-- Certificates. -/
def certs17 : List (ℕ × ℕ × ℕ) := [(1, 1, 1), (34, 1, 3), (646, 1, 12), (1938, 1, 120), (323, 1, 5040), (92378, 1,
    5040), (6374082, 1, 10080), (96577, 1, 1330560), (965770, 1, 6652800), (37145, 1, 518918400), (222870, 1,
    3113510400), (222870, 1, 43589145600), (1077205, 1, 261534873600), (6463230, 1, 1307674368000), (200360130, 1,
    2615348736000), (33393355, 1, 62768369664000), (2203961430, 1, 62768369664000), (64822395, 1, 2134124568576000)]

theorem row17 : checkRow 17 0 certs17 vals17 ders17 = true := by decide +kernel

end PiBem.Legendre.Table
