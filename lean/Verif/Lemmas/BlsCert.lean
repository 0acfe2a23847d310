import Verif.Lemmas.CurveTurn
import Verif.Lemmas.PrimesBlsTwist
import Verif.Props.Curves

/-!
# Certificates: points of small and large prime order on the curves of BLS12-381
-/

namespace Fawkes.Props

open Groth16

/-- The number of points of the first curve divided by `r`. -/
def blsCofactor : Nat := 0x396c8c005555e1568c00aaab0000aaab

/-- The number of points of the twist divided by `r`. -/
def blsCofactor2 : Nat := 0x5d543a95414e7f1091d50792876a202cd91de4547085abaa68a205b2e5a7ddfa628f1cb4d9e82ef21537e293a6691ae1616ec6e786f0c70cf1c38e31c7238e5

theorem blsCofactor_eq : blsCofactor = 3 * 11 ^ 2 * 10177 ^ 2 * 859267 ^ 2 * 52437899 ^ 2 := by decide +kernel

theorem blsCofactor2_eq : blsCofactor2 = 13 ^ 2 * 23 ^ 2 * 2713 * 11953 * 262069 *
    402096035359507321594726366720466575392706800671181159425656785868777272553337714697862511267018014931937703598282857976535744623203249 := by decide +kernel

/-- A cube root of one. -/
def blsRoot : Nat := 793479390729215512621379701633421447060886740281060493010456487427281649075476305620758731620350

theorem blsRoot_is : isRoot (natOps blsQ 381) blsRoot = true := by decide +kernel

theorem blsRoot_is2 : isRoot (natOps2 blsQ 381) (blsRoot, 0) = true := by decide +kernel

theorem blsRest : (isOn (natOps blsQ 381) 4 (0, 2) && isKilled (natOps blsQ 381) 4 3 (0, 2)) = true := by decide +kernel

/-- A point of order 11. -/
def blsG1_11 : Nat × Nat := (811811321936768134445792459399640666717268777171048764324191390309117617313406271839591553226528230213265338287306, 3811090952691767246534598751095594115841168604311792512444873178766476313039826024571588042763932144033538486081077)

theorem blsG1_11_cert : (isOn (natOps blsQ 381) 4 blsG1_11 && isKilled (natOps blsQ 381) 5 11 blsG1_11 && isMoved (natOps blsQ 381) blsRoot blsG1_11) = true := by
  decide +kernel

/-- A point of order 10177 that the endomorphism multiplies by 4773. -/
def blsG1_10177a : Nat × Nat := (2591291041650622388485990787946965690069496142291301183677242304010982493189429161136960858925599406107220610927464, 3802611625881817532301601626407463636185047604810626062322456444925735703951552396365497644751127324828361740462200)

theorem blsG1_10177a_cert : (isOn (natOps blsQ 381) 4 blsG1_10177a && isKilled (natOps blsQ 381) 15 10177 blsG1_10177a && isTurned (natOps blsQ 381) blsRoot 15 4773 blsG1_10177a) = true := by
  decide +kernel

/-- A point of order 10177 that the endomorphism multiplies by 5403. -/
def blsG1_10177b : Nat × Nat := (239056679389701600899511407970285722039616314859956953727986567721763755312466845022314042890008907641667251828337, 2113841401176835529465198304466747627679174325608309530047394284199129751138849643245503365781079197276431087181536)

theorem blsG1_10177b_cert : (isOn (natOps blsQ 381) 4 blsG1_10177b && isKilled (natOps blsQ 381) 15 10177 blsG1_10177b && isTurned (natOps blsQ 381) blsRoot 15 5403 blsG1_10177b) = true := by
  decide +kernel

/-- A point of order 859267 that the endomorphism multiplies by 119571. -/
def blsG1_859267a : Nat × Nat := (3455202270811594037808239453388684727744240987076991550822677791447235052368676670559071533907022960181991010813119, 2181072926906079222388513700842562934844458528558114095646809496025914575005189883397254260906878661795229753647991)

theorem blsG1_859267a_cert : (isOn (natOps blsQ 381) 4 blsG1_859267a && isKilled (natOps blsQ 381) 21 859267 blsG1_859267a && isTurned (natOps blsQ 381) blsRoot 21 119571 blsG1_859267a) = true := by
  decide +kernel

/-- A point of order 859267 that the endomorphism multiplies by 739695. -/
def blsG1_859267b : Nat × Nat := (2448706407144728740591579812053173768238498053892509235612854097737524524496971312012295562840238679885671577824561, 3473307483710003715102602269213673861264612142380251807957210619677398712705673000068538914841525884559973128887255)

theorem blsG1_859267b_cert : (isOn (natOps blsQ 381) 4 blsG1_859267b && isKilled (natOps blsQ 381) 21 859267 blsG1_859267b && isTurned (natOps blsQ 381) blsRoot 21 739695 blsG1_859267b) = true := by
  decide +kernel

/-- A point of order 52437899. -/
def blsG1_52437899 : Nat × Nat := (3521049827694488051505927202641847046122780655697137622490706464279651639004931492458848402115052221496667345198026, 2547216414664666717419617026624164754032919461473105901776107475142943168302466724810481102442451566221258319480378)

theorem blsG1_52437899_cert : (isOn (natOps blsQ 381) 4 blsG1_52437899 && isKilled (natOps blsQ 381) 27 52437899 blsG1_52437899 && isMoved (natOps blsQ 381) blsRoot blsG1_52437899) = true := by
  decide +kernel

/-- A point of order 13 that the endomorphism multiplies by 3. -/
def blsG2_13a : (Nat × Nat) × (Nat × Nat) := ((1593988499661308563284045245477018558732067027686160707023497140631030667147397786594871935188011131530164068890923, 2006288431516961167429063236373895596805214599977383387610202378920232710754397352395576640017205595818831647982392),
  (3759855240537496315191884535625196662595626701545279265647765647246344518057080039103349723603514985860133577299629, 3901518365770590965171518920462679829925422518414351672749156654942999864178977671852264593554843987223967993986829))

theorem blsG2_13a_cert : (isOn (natOps2 blsQ 381) (4, 4) blsG2_13a && isKilled (natOps2 blsQ 381) 5 13 blsG2_13a && isTurned (natOps2 blsQ 381) (blsRoot, 0) 5 3 blsG2_13a) = true := by
  decide +kernel

/-- A point of order 13 that the endomorphism multiplies by 9. -/
def blsG2_13b : (Nat × Nat) × (Nat × Nat) := ((2953120019527476632639149689999630468189657731410585391496351984947061867613990759171471547071579439031966168877532, 2453652699104531712230786520227535732999041549751937213111417869736460812500462930035840703451662291559208038334282),
  (1457810397238693086419510131983036146722339315326776798793988125280771431770356250271169217524894356368941351783910, 2317679971132207311815591943418904540430316496340175593481448374865309027753460928895494412743767171622730888815133))

theorem blsG2_13b_cert : (isOn (natOps2 blsQ 381) (4, 4) blsG2_13b && isKilled (natOps2 blsQ 381) 5 13 blsG2_13b && isTurned (natOps2 blsQ 381) (blsRoot, 0) 5 9 blsG2_13b) = true := by
  decide +kernel

/-- A point of order 23. -/
def blsG2_23 : (Nat × Nat) × (Nat × Nat) := ((1715285132432421227892055144260563575721932042861298813407140902964013595507613450867644313692759240297716893720304, 1067556269662939748458651238540711642903223994837076946602749107922249027437249049493142494646981431854912035545412),
  (931335288632988912971528626919487135063321458431209135704962414354275085053910385985519969181954923815549550502028, 1532351230065140350070867628917171243308825155184626900456537391819565330876912306810324500932468728211826107281643))

theorem blsG2_23_cert : (isOn (natOps2 blsQ 381) (4, 4) blsG2_23 && isKilled (natOps2 blsQ 381) 6 23 blsG2_23 && isMoved (natOps2 blsQ 381) (blsRoot, 0) blsG2_23) = true := by
  decide +kernel

/-- A point of order 2713. -/
def blsG2_2713 : (Nat × Nat) × (Nat × Nat) := ((3207946492547670690269873254487308218985965277626802742907468917463877493457088272823108336627167118265053669919818, 1546828666825365621047456501478635950921495464418627728900574962888941539070419431470709295306221600416215498332328),
  (1123205955340255485583475280028279917319652245397389641468201531579315551651726745264971664288490936982906498720170, 2804484064772548366073636844222306970467257307401767879976076659265664758140882817282443303102229581669654393334459))

theorem blsG2_2713_cert : (isOn (natOps2 blsQ 381) (4, 4) blsG2_2713 && isKilled (natOps2 blsQ 381) 13 2713 blsG2_2713) = true := by
  decide +kernel

/-- A point of order 11953. -/
def blsG2_11953 : (Nat × Nat) × (Nat × Nat) := ((3936045761199469237219670024678745231975903135407041803770329314731065243859526184183137628219983493972411131621896, 3694653986443573881158108925042652485600242699474599515197404239514129846388781981831731572906966998960590794437471),
  (3602945782452598822512075773852119845606891190728082668849411262584271914996045224229124512447007588503391107186007, 3152241715992571233692478173213406649439381656385133106140705980968269209470560629287821102738572821370819781498507))

theorem blsG2_11953_cert : (isOn (natOps2 blsQ 381) (4, 4) blsG2_11953 && isKilled (natOps2 blsQ 381) 15 11953 blsG2_11953) = true := by
  decide +kernel

/-- A point of order 262069. -/
def blsG2_262069 : (Nat × Nat) × (Nat × Nat) := ((845086944829458700601192475116430775049601010586235644582003295848300929875654678083670574123276470121899534950134, 627409225754695810936513427611336950913169318933446186401613740785767706111328134057428089101559628131083051899309),
  (2620850579161055187112444216865641964354712827836100397988866205363314119081164618882278830195555637782940561803679, 330422271359618588553274465914295251853452319237403155967131419735241803089199739569049878925248815045875968199406))

theorem blsG2_262069_cert : (isOn (natOps2 blsQ 381) (4, 4) blsG2_262069 && isKilled (natOps2 blsQ 381) 19 262069 blsG2_262069) = true := by
  decide +kernel

/-- A point of order the large factor. -/
def blsG2_large : (Nat × Nat) × (Nat × Nat) := ((1761225221636303811578074512289986028173964913881612626218423422492599359649142720648090835522305979390724797058772, 1983583756401036333588949957837667161715707452296399293990989349875528772911009156652472242600621831973972010324980),
  (1662757314021262028480653323890360765633510720148256362661894727762780470035992207617785219876163783865476392311574, 371965620172278992476245682471440181592771420488405248218083691587526483871562856912445349597380594589202778768894))

theorem blsG2_large_cert : (isOn (natOps2 blsQ 381) (4, 4) blsG2_large && isKilled (natOps2 blsQ 381) 449 402096035359507321594726366720466575392706800671181159425656785868777272553337714697862511267018014931937703598282857976535744623203249 blsG2_large) = true := by
  decide +kernel

end Fawkes.Props
