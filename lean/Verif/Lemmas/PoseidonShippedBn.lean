import Verif.Props.Rand
import Verif.Lemmas.PoseidonMatrix

/-!
# The matrices of the Poseidon parameters used in the repository, over the scalar field of BN256

The numbers were computed with Python's `hashlib.blake2s`; the kernel recomputes the matrices with the model of the
generator.  The second list of each width is the inverse matrix.
-/

namespace Fawkes

def bnRM2 : List (List (ZMod bnR)) :=
   [[14010265420741723760678865469380471846309895419796084520151606845305767493484, 17599394197477449162059586495817753993851228014353762569193140686840142762183],
    [8648488465454141637463254079715754575026677271094466091537571487681669030880, 3770711082162119153221864196319587759852244770340766359618813404116184311431]]

def bnRM2Inv : List (List (ZMod bnR)) :=
   [[12941970895849172526291667592919541709682130227701058128831104674426108789268, 6028171683928098363346304204703071347287827309006734586686557140113886629914],
    [12550512411598033374051946183519840277852545202598163786519780661635505817569, 1461388173112390180005017183807325961746433729918786100486414751918769398016]]

theorem bnRM2_new : (PoseidonParams.new bnR true 20 2 8 53).map (fun P => P.m) = .ok bnRM2 := by decide +kernel

theorem bnRM2_nonzero : ∀ row ∈ bnRM2, ∀ c ∈ row, c ≠ 0 :=
  all_nonzero (by decide +kernel)

theorem bnRM2_inv : matrixOf 2 bnRM2Inv * matrixOf 2 bnRM2 = 1 := by decide +kernel

/-- The matrix of `PoseidonParams::new(2, 8, 53)`. -/
theorem bnRM2_eq {checks : Bool} {tries : Nat} {P : PoseidonParams (ZMod bnR)}
    (h : PoseidonParams.new bnR checks tries 2 8 53 = .ok P) : P.m = bnRM2 :=
  new_matrix_eq bnRM2_new h

def bnRM3 : List (List (ZMod bnR)) :=
   [[17499369744997805355124515367791955734005206383405927001019517776596431027202, 20134182393972255482889963007641523170241633063518849245579877163792811826040, 9572455286488387305272801790333225764324125739900714029680484810011722496655],
    [2600468676168484525030069361195118796816598263659259397293023252717285234043, 13502078897622079549059403210206755572289706262652453043955369110018489918348, 7661551569689581804406774173177039267282172872003737136751474434078692324753],
    [3943723313124725768547773520552683940099184155610303319888598736194359068507, 2188300825887362213956823649674554857602289576249445269537343592280038892445, 17835151158077356723588051421931716713842659116408050132356625685378269617200]]

def bnRM3Inv : List (List (ZMod bnR)) :=
   [[19239722644383672455869115786691863957247817873504634648154678122678143945421, 5279173534663792476181890809326687375554600171150261622053462169518676854451, 619738582806064936004456235320087878116482120882334499859104431019336507848],
    [7915136364028220420038741660312997400806611721946596072470926630302492269680, 7396288580331050456611832120335778887154142358033574262603875888953925569707, 17016120575139753832438963958453257702677393803022601410118475408511110479867],
    [17139599087652101633044601236342951118193380024410544142373331560338151330445, 19882865526801619815343923803623185777042668455525920342246030519557263619674, 822018283797006098429107276997030472117107691520507403877215571246125798812]]

theorem bnRM3_new : (PoseidonParams.new bnR true 20 3 8 53).map (fun P => P.m) = .ok bnRM3 := by decide +kernel

theorem bnRM3_nonzero : ∀ row ∈ bnRM3, ∀ c ∈ row, c ≠ 0 :=
  all_nonzero (by decide +kernel)

theorem bnRM3_inv : matrixOf 3 bnRM3Inv * matrixOf 3 bnRM3 = 1 := by decide +kernel

/-- The matrix of `PoseidonParams::new(3, 8, 53)`. -/
theorem bnRM3_eq {checks : Bool} {tries : Nat} {P : PoseidonParams (ZMod bnR)}
    (h : PoseidonParams.new bnR checks tries 3 8 53 = .ok P) : P.m = bnRM3 :=
  new_matrix_eq bnRM3_new h

def bnRM4 : List (List (ZMod bnR)) :=
   [[13973168309435062726930655754510763175006865157379548782946856322025285425978, 19917181318293928496257537737871402618750246371512829990333619172870723275192, 19458955961956566719085099056984940648631562686733626394095756421977708785712, 3320783776501118349040634509744933283907668945555422443588488039398023386457],
    [6230300013093557813115832297415666393820849835070449518938014186932111076444, 11884805085622542277339670003712985275508632442855242140683543851110248197349, 227452778102141291627677057759406585873469691200329020702438799080251247671, 3189774067718893079611863173708163182365738939298806005516470916771515853270],
    [15016786544656701193796110641033094982699793709597550160072024192624695436306, 529904372296452301081154116294703948956308719244019691699127160191379309429, 21400611793191112104522489661066575571404171276924930714611737202973111188889, 9898695063175743736203505753704803569451532011519896005826408707559494161609],
    [4045578546504069891881301124670366537343482274798423634292992799140704906588, 3233400802586682343410980231970256131204489431710678801635909676267029385553, 18537490620203920245981248297791242094659888158034168662177646546457518193433, 10991234003762071157299128743655335596831755723122936206153016525585355690152]]

def bnRM4Inv : List (List (ZMod bnR)) :=
   [[6648962563482321379981263778814840401571335706111854754458520996850796302721, 952944150552207332041498415660833743902613115077034839405408099910918079779, 17393443599371048084051111065857187300296123482398526959106383388515929877981, 13191061675548633120234740664459490521619604610666159070705809014718614520314],
    [13872805295269954268139840911837395108041798018769419856292675643663189399121, 7697764258379364454915136277407217606859020299472420448664926062126977133215, 4354784691928564360087422038882496691385210631392828001883249611213996291235, 3914326830720837389456256834179238515432913378606584329359241613544068237486],
    [10657079847160709425577851847768818967689723087768318794889597035742922347966, 448164966079397977148372043323257930588713841532862314989680145242829893960, 4437070960225603662928599639826921724112961055510716610837056682246256418986, 19398488863427833492969693992364387185759621415169921810256897763067835531943],
    [19023830075886117422013972487564898297677191960945834396097906876317027642793, 8166639479128858459454853038364223020701067566725326966951029226332341149352, 19627199167866917790171637287437651269397535675175539556003668015051573108819, 10241972970806032702369789936438984311299848469585002078204004779076243921440]]

theorem bnRM4_new : (PoseidonParams.new bnR true 20 4 8 54).map (fun P => P.m) = .ok bnRM4 := by decide +kernel

theorem bnRM4_nonzero : ∀ row ∈ bnRM4, ∀ c ∈ row, c ≠ 0 :=
  all_nonzero (by decide +kernel)

theorem bnRM4_inv : matrixOf 4 bnRM4Inv * matrixOf 4 bnRM4 = 1 := by decide +kernel

/-- The matrix of `PoseidonParams::new(4, 8, 54)`. -/
theorem bnRM4_eq {checks : Bool} {tries : Nat} {P : PoseidonParams (ZMod bnR)}
    (h : PoseidonParams.new bnR checks tries 4 8 54 = .ok P) : P.m = bnRM4 :=
  new_matrix_eq bnRM4_new h

end Fawkes
