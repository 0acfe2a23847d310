import Verif.Props.Rand
import Verif.Lemmas.PoseidonMatrix
import Verif.Lemmas.PoseidonShippedBn

/-!
# The matrices of the Poseidon parameters used in the repository, over the scalar field of BLS12-381

The numbers were computed with Python's `hashlib.blake2s`; the kernel recomputes the matrices with the model of the
generator.  The second list of each width is the inverse matrix.
-/

namespace Fawkes

def blsRM2 : List (List (ZMod blsR)) :=
   [[25627564901423874197398641961292090928913233228779824498954298847051747395958, 46578793790198814471298069860989361858599158917897126369312859209702282045966],
    [38930151004954826787012622887571003817578832461903327159453715939192288245624, 14852836327494118006308887641842887041338898164377070210836444723429478980548]]

def blsRM2Inv : List (List (ZMod blsR)) :=
   [[31584366570127810193490260934992597262278855944061101435383079776522867810716, 45248487679267023201834707149152241223502363582901975371471228845811548506083],
    [7190907016089114540505145982542844311597167022709762823027634586840583980736, 37756656253334719478110443307380458566375281604052228041934020447488058573577]]

theorem blsRM2_new : (PoseidonParams.new blsR true 20 2 8 53).map (fun P => P.m) = .ok blsRM2 := by decide +kernel

theorem blsRM2_nonzero : ∀ row ∈ blsRM2, ∀ c ∈ row, c ≠ 0 :=
  all_nonzero (by decide +kernel)

theorem blsRM2_inv : matrixOf 2 blsRM2Inv * matrixOf 2 blsRM2 = 1 := by decide +kernel

/-- The matrix of `PoseidonParams::new(2, 8, 53)`. -/
theorem blsRM2_eq {checks : Bool} {tries : Nat} {P : PoseidonParams (ZMod blsR)}
    (h : PoseidonParams.new blsR checks tries 2 8 53 = .ok P) : P.m = blsRM2 :=
  new_matrix_eq blsRM2_new h

def blsRM3 : List (List (ZMod blsR)) :=
   [[17596211827478471344569989977654640915131884456331799354619375568916330174690, 34060908903912602701197425375828599689600071619381161959813690823872110557562, 34901802508711429128047388734147774573664078680547775564391487721295161810587],
    [47594788252169737363217851688448725986956709044488103770253006378344739552667, 15865581768201060561331886537742393755216100671692758132190933946508673562630, 1675633318150339002735902405450296929966422381166427175009300598170927473880],
    [22516964228073046896695878071371814565603452388691288210730812771982700357089, 36714966682777038873918301703801147018112659296345820720256645309598477413660, 42578529828924526702566154196243409556101338156145217378365364219143886367305]]

def blsRM3Inv : List (List (ZMod blsR)) :=
   [[50179019375188102021741183022629331182590854189687285557570222761670600269276, 13498277067017442810557633261006496772514620577295504299196458480028648599176, 49083315503702700593846791511076185208827319837192378520591922423987782714693],
    [25627845962944158352194242082350209550318634469509391267023706720505055412043, 3775213514432604428681660191745212592542138814188650224951341120001876719357, 34189043593465488933873952544176633732527823464732307175333804266074922344464],
    [13426303205993847231110515467573968920568496584328204558996822799461219695907, 9724563091621945658709756259631907666467444432842200569464595134524435667698, 28042585848486062312252502765007344571723973503511458151227007942309026159626]]

theorem blsRM3_new : (PoseidonParams.new blsR true 20 3 8 53).map (fun P => P.m) = .ok blsRM3 := by decide +kernel

theorem blsRM3_nonzero : ∀ row ∈ blsRM3, ∀ c ∈ row, c ≠ 0 :=
  all_nonzero (by decide +kernel)

theorem blsRM3_inv : matrixOf 3 blsRM3Inv * matrixOf 3 blsRM3 = 1 := by decide +kernel

/-- The matrix of `PoseidonParams::new(3, 8, 53)`. -/
theorem blsRM3_eq {checks : Bool} {tries : Nat} {P : PoseidonParams (ZMod blsR)}
    (h : PoseidonParams.new blsR checks tries 3 8 53 = .ok P) : P.m = blsRM3 :=
  new_matrix_eq blsRM3_new h

def blsRM4 : List (List (ZMod blsR)) :=
   [[36583582486752737270922429679677316385934434591854876600860869798872206162376, 12797201679544895099346326804716743167158414021150287545296441558688869293106, 50941288549619327698124029202474579116185179878287297796290034915005358298753, 37949916075070857701778331292652721518165556885970610750077109647133578367180],
    [45562440403731620116479142151838708127127814731864516166830309301796234872212, 19881773356794779759295120113896450137946188927493167952921843560877484305073, 42891750390216924892959900045908578190861542559022739051480554094560251030922, 49093669420175955045647304056241328957565696963484198670558215426414376346490],
    [37373714967588632696198982557715608372538670555486299831930223100342020477467, 43374084352062061398566957440207359732066991896423349891087062296833166401600, 41535347425977920480735705425604338666504085193839369413869793068762780083856, 42852835693991412973816000875765338003178690281857231746484942553616975888109],
    [32804303796754988896551779462914365007261578752411211888352446422108840487037, 20376096265647064837094553689095592680482143268862080133835071665316248330968, 24423161072651809560367970113447755560862880812534598361324175045505477834138, 35543286051143772674661871714420189936783271548657045491581484953565194234535]]

def blsRM4Inv : List (List (ZMod blsR)) :=
   [[8851561363499525483449829985444149218815565586006782145131025004374653088977, 9736170664933225315932829875670923112600113726580842781373321939354318291793, 32880619841604619068661874060674238334432455346958395838374303942013017798381, 21694685442632762356955481107183745494581713596060853923705205884686231653545],
    [566673788444628112466821534814177395079788204915393154104567222613850379917, 19533415252807433133266892725417743017509303354461465616789601848235927824444, 26815348754122525149500417361616810243641550157129947554796330085182819309132, 34837737838223338111609403136475056693625494874714432572106809978721685034845],
    [29889033709502759336899784241771581254488307005199808769806054229885092641205, 1098338121058776676252610460124897477684944730114617534818743321953679001731, 1107105702217846419538488323613552800156521739907265112829591390511002100335, 41792731988584060340429996765477388681766365920242411620052631785023644211771],
    [23077505817958336098230952674791597606807109639352377594192871150132789411388, 34064666891911871464870261096618715515821680883724261800584223069662135412954, 29289384712361912396760203361370852393875236742776890939480333011840683667022, 17394504942221496161271972903317303061728085698233884092734145944263760146633]]

theorem blsRM4_new : (PoseidonParams.new blsR true 20 4 8 54).map (fun P => P.m) = .ok blsRM4 := by decide +kernel

theorem blsRM4_nonzero : ∀ row ∈ blsRM4, ∀ c ∈ row, c ≠ 0 :=
  all_nonzero (by decide +kernel)

theorem blsRM4_inv : matrixOf 4 blsRM4Inv * matrixOf 4 blsRM4 = 1 := by decide +kernel

/-- The matrix of `PoseidonParams::new(4, 8, 54)`. -/
theorem blsRM4_eq {checks : Bool} {tries : Nat} {P : PoseidonParams (ZMod blsR)}
    (h : PoseidonParams.new blsR checks tries 4 8 54 = .ok P) : P.m = blsRM4 :=
  new_matrix_eq blsRM4_new h

end Fawkes
