/-!
# The filter tables of `pywt/_extensions/c/wavelets_coeffs.template.h`

Generated by `tools/gen_tables.py`.  The pair `(n, k)` is the literal `n·10⁻ᵏ`, digit for digit as in the
source.
-/

namespace Pywt
namespace Tables

/-- A decimal literal `n·10⁻ᵏ`. -/
abbrev Lit := Int × Nat

/-- `db1` (wavelets_coeffs.template.h L35-38). -/
def db1 : List Lit := [
  (7071067811865475244008443621048490392848359376884740365883398, 61),
  (7071067811865475244008443621048490392848359376884740365883398, 61)]

/-- `db2` (wavelets_coeffs.template.h L40-45). -/
def db2 : List Lit := [
  (4829629131445341433748715998644486838169524195042022752011715, 61),
  (8365163037378079055752937809168732034593703883484392934953414, 61),
  (2241438680420133810259727622404003554678835181842717613871683, 61),
  (-1294095225512603811744494188120241641745344506599652569070016, 61)]

/-- `db3` (wavelets_coeffs.template.h L48-55). -/
def db3 : List Lit := [
  (3326705529500826159985115891390056300129233992450683597084705, 61),
  (8068915093110925764944936040887134905192973949948236181650920, 61),
  (4598775021184915700951519421476167208081101774314923066433867, 61),
  (-1350110200102545886963899066993744805622198452237811919756862, 61),
  (-8544127388202666169281916918177331153619763898808662976351748, 62),
  (3522629188570953660274066471551002932775838791743161039893406, 62)]

/-- `db4` (wavelets_coeffs.template.h L58-67). -/
def db4 : List Lit := [
  (2303778133088965008632911830440708500016152482483092977910968, 61),
  (7148465705529156470899219552739926037076084010993081758450110, 61),
  (6308807679298589078817163383006152202032229226771951174057473, 61),
  (-2798376941685985421141374718007538541198732022449175284003358, 62),
  (-1870348117190930840795706727890814195845441743745800912057770, 61),
  (3084138183556076362721936253495905017031482172003403341821219, 62),
  (3288301166688519973540751354924438866454194113754971259727278, 62),
  (-1059740178506903210488320852402722918109996490637641983484974, 62)]

/-- `db5` (wavelets_coeffs.template.h L70-81). -/
def db5 : List Lit := [
  (1601023979741929144807237480204207336505441246250578327725699, 61),
  (6038292697971896705401193065250621075074221631016986987969283, 61),
  (7243085284377729277280712441022186407687562182320073725767335, 61),
  (1384281459013207315053971463390246973141057911739561022694652, 61),
  (-2422948870663820318625713794746163619914908080626185983913726, 61),
  (-3224486958463837464847975506213492831356498416379847225434268, 62),
  (7757149384004571352313048938860181980623099452012527983210146, 62),
  (-6241490212798274274190519112920192970763557165687607323417435, 63),
  (-1258075199908199946850973993177579294920459162609785020169232, 62),
  (3335725285473771277998183415817355747636524742305315099706428, 63)]

/-- `db6` (wavelets_coeffs.template.h L84-97). -/
def db6 : List Lit := [
  (1115407433501094636213239172409234390425395919844216759082360, 61),
  (4946238903984530856772041768778555886377863828962743623531834, 61),
  (7511339080210953506789344984397316855802547833382612009730420, 61),
  (3152503517091976290859896548109263966495199235172945244404163, 61),
  (-2262646939654398200763145006609034656705401539728969940143487, 61),
  (-1297668675672619355622896058765854608452337492235814701599310, 61),
  (9750160558732304910234355253812534233983074749525514279893193, 62),
  (2752286553030572862554083950419321365738758783043454321494202, 62),
  (-3158203931748602956507908069984866905747953237314842337511464, 62),
  (5538422011614961392519183980465012206110262773864964295476524, 64),
  (4777257510945510639635975246820707050230501216581434297593254, 63),
  (-1077301085308479564852621609587200035235233609334419689818580, 63)]

/-- `db7` (wavelets_coeffs.template.h L100-115). -/
def db7 : List Lit := [
  (7785205408500917901996352195789374837918305292795568438702937, 62),
  (3965393194819173065390003909368428563587151149333287401110499, 61),
  (7291320908462351199169430703392820517179660611901363782697715, 61),
  (4697822874051931224715911609744517386817913056787359532392529, 61),
  (-1439060039285649754050683622130460017952735705499084834401753, 61),
  (-2240361849938749826381404202332509644757830896773246552665095, 61),
  (7130921926683026475087657050112904822711327451412314659575113, 62),
  (8061260915108307191292248035938190585823820965629489058139218, 62),
  (-3802993693501441357959206160185803585446196938467869898283122, 62),
  (-1657454163066688065410767489170265479204504394820713705239272, 62),
  (1255099855609984061298988603418777957289474046048710038411818, 62),
  (4295779729213665211321291228197322228235350396942409742946366, 64),
  (-1801640704047490915268262912739550962585651469641090625323864, 63),
  (3537137999745202484462958363064254310959060059520040012524275, 64)]

/-- `db8` (wavelets_coeffs.template.h L117-134). -/
def db8 : List Lit := [
  (5441584224310400995500940520299935503599554294733050397729280, 62),
  (3128715909142999706591623755057177219497319740370229185698712, 61),
  (6756307362972898068078007670471831499869115906336364227766759, 61),
  (5853546836542067127712655200450981944303266678053369055707175, 61),
  (-1582910525634930566738054787646630415774471154502826559735335, 62),
  (-2840155429615469265162031323741647324684350124871451793599204, 61),
  (4724845739132827703605900098258949861948011288770074644084096, 64),
  (1287474266204784588570292875097083843022601575556488795577000, 61),
  (-1736930100180754616961614886809598311413086529488394316977315, 62),
  (-4408825393079475150676372323896350189751839190110996472750391, 62),
  (1398102791739828164872293057263345144239559532934347169146368, 62),
  (8746094047405776716382743246475640180402147081140676742686747, 63),
  (-4870352993451574310422181557109824016634978512157003764736208, 63),
  (-3917403733769470462980803573237762675229350073890493724492694, 64),
  (6754494064505693663695475738792991218489630013558432103617077, 64),
  (-1174767841247695337306282316988909444086693950311503927620013, 64)]

/-- `db9` (wavelets_coeffs.template.h L137-156). -/
def db9 : List Lit := [
  (3807794736387834658869765887955118448771714496278417476647192, 62),
  (2438346746125903537320415816492844155263611085609231361429088, 61),
  (6048231236901111119030768674342361708959562711896117565333713, 61),
  (6572880780513005380782126390451732140305858669245918854436034, 61),
  (1331973858250075761909549458997955536921780768433661136154346, 61),
  (-2932737832791749088064031952421987310438961628589906825725112, 61),
  (-9684078322297646051350813353769660224825458104599099679471267, 62),
  (1485407493381063801350727175060423024791258577280603060771649, 61),
  (3072568147933337921231740072037882714105805024670744781503060, 62),
  (-6763282906132997367564227482971901592578790871353739900748331, 62),
  (2509471148314519575871897499885543315176271993709633321834164, 64),
  (2236166212367909720537378270269095241855646688308853754721816, 62),
  (-4723204757751397277925707848242465405729514912627938018758526, 63),
  (-4281503682463429834496795002314531876481181811463288374860455, 63),
  (1847646883056226476619129491125677051121081359600318160732515, 63),
  (2303857635231959672052163928245421692940662052463711972260006, 64),
  (-2519631889427101369749886842878606607282181543478028214134265, 64),
  (3934732031627159948068988306589150707782477055517013507359938, 65)]

/-- `db10` (wavelets_coeffs.template.h L159-180). -/
def db10 : List Lit := [
  (2667005790055555358661744877130858277192498290851289932779975, 62),
  (1881768000776914890208929736790939942702546758640393484348595, 61),
  (5272011889317255864817448279595081924981402680840223445318549, 61),
  (6884590394536035657418717825492358539771364042407339537279681, 61),
  (2811723436605774607487269984455892876243888859026150413831543, 61),
  (-2498464243273153794161018979207791000564669737132073715013121, 61),
  (-1959462743773770435042992543190981318766776476382778474396781, 61),
  (1273693403357932600826772332014009770786177480422245995563097, 61),
  (9305736460357235116035228983545273226942917998946925868063974, 62),
  (-7139414716639708714533609307605064767292611983702150917523756, 62),
  (-2945753682187581285828323760141839199388200516064948779769654, 62),
  (3321267405934100173976365318215912897978337413267096043323351, 62),
  (3606553566956169655423291417133403299517350518618994762730612, 63),
  (-1073317548333057504431811410651364448111548781143923213370333, 62),
  (1395351747052901165789318447957707567660542855688552426721117, 63),
  (1992405295185056117158742242640643211762555365514105280067936, 63),
  (-6858566949597116265613709819265714196625043336786920516211903, 64),
  (-1164668551292854509514809710258991891527461854347597362819235, 64),
  (9358867032006959133405013034222854399688456215297276443521873, 65),
  (-1326420289452124481243667531226683305749240960605829756400674, 65)]

/-- `db11` (wavelets_coeffs.template.h L182-205). -/
def db11 : List Lit := [
  (1869429776147108402543572939561975728967774455921958543286692, 62),
  (1440670211506245127951915849361001143023718967556239604318852, 61),
  (4498997643560453347688940373853603677806895378648933474599655, 61),
  (6856867749162005111209386316963097935940204964567703495051589, 61),
  (4119643689479074629259396485710667307430400410187845315697242, 61),
  (-1622752450274903622405827269985511540744264324212130209649667, 61),
  (-2742308468179469612021009452835266628648089521775178221905778, 61),
  (6604358819668319190061457888126302656753142168940791541113457, 62),
  (1498120124663784964066562617044193298588272420267484653796909, 61),
  (-4647995511668418727161722589023744577223260966848260747450320, 62),
  (-6643878569502520527899215536971203191819566896079739622858574, 62),
  (3133509021904607603094798408303144536358105680880031964936445, 62),
  (2084090436018106302294811255656491015157761832734715691126692, 62),
  (-1536482090620159942619811609958822744014326495773000120205848, 62),
  (-3340858873014445606090808617982406101930658359499190845656731, 63),
  (4928417656059041123170739741708273690285547729915802418397458, 63),
  (-3085928588151431651754590726278953307180216605078488581921562, 64),
  (-8930232506662646133900824622648653989879519878620728793133358, 64),
  (2491525235528234988712216872666801088221199302855425381971392, 64),
  (5443907469936847167357856879576832191936678525600793978043688, 65),
  (-3463498418698499554128085159974043214506488048233458035943601, 65),
  (4494274277236510095415648282310130916410497987383753460571741, 66)]

/-- `db12` (wavelets_coeffs.template.h L207-232). -/
def db12 : List Lit := [
  (1311225795722951750674609088893328065665510641931325007748280, 62),
  (1095662728211851546057045050248905426075680503066774046383657, 61),
  (3773551352142126570928212604879206149010941706057526334705839, 61),
  (6571987225793070893027611286641169834250203289988412141394281, 61),
  (5158864784278156087560326480543032700677693087036090056127647, 61),
  (-4476388565377462666762747311540166529284543631505924139071704, 62),
  (-3161784537527855368648029353478031098508839032547364389574203, 61),
  (-2377925725606972768399754609133225784553366558331741152482612, 62),
  (1824786059275796798540436116189241710294771448096302698329011, 61),
  (5359569674352150328276276729768332288862665184192705821636342, 63),
  (-9643212009650708202650320534322484127430880143045220514346402, 62),
  (1084913025582218438089010237748152188661630567603334659322512, 62),
  (4154627749508444073927094681906574864513532221388374861287078, 62),
  (-1221864906974828071998798266471567712982466093116558175344811, 62),
  (-1284082519830068329466034471894728496206109832314097633275225, 62),
  (6711499008795509177767027068215672450648112185856456740379455, 63),
  (2248607240995237599950865211267234018343199786146177099262010, 63),
  (-2179503618627760471598903379584171187840075291860571264980942, 63),
  (6545128212509595566500430399327110729111770568897356630714552, 66),
  (3886530628209314435897288837795981791917488573420177523436096, 64),
  (-8850410920820432420821645961553726598738322151471932808015443, 65),
  (-2424154575703078402978915320531719580423778362664282239377532, 65),
  (1277695221937976658714046362616620887375960941439428756055353, 65),
  (-1529071758068510902712239164522901223197615439660340672602696, 66)]

/-- `db13` (wavelets_coeffs.template.h L234-261). -/
def db13 : List Lit := [
  (9202133538962367972970163475644184667534171916416562386009703, 63),
  (8286124387290277964432027131230466405208113332890135072514277, 62),
  (3119963221604380633960784112214049693946683528967180317160390, 61),
  (6110558511587876528211995136744180562073612676018239438526582, 61),
  (5888895704312189080710395347395333927665986382812836042235573, 61),
  (8698572617964723731023739838087494399231884076619701250882016, 62),
  (-3149729077113886329981698255932282582876888450678789025950306, 61),
  (-1245767307508152589413808336021260180792739295173634719572069, 61),
  (1794760794293398432348450072339369013581966256244133393042881, 61),
  (7294893365677716380902830610477661983325929026879873553627963, 62),
  (-1058076181879343264509667304196464849478860754801236658232360, 61),
  (-2648840647534369463963912248034785726419604844297697016264224, 62),
  (5613947710028342886214501998387331119988378792543100244737056, 62),
  (2379972254059078811465170958554208358094394612051934868475139, 63),
  (-2383142071032364903206403067757739134252922717636226274077298, 62),
  (3923941448797416243316370220815526558824746623451404043918407, 63),
  (7255589401617566194518393300502698898973529679646683695269828, 63),
  (-2761911234656862178014576266098445995350093330501818024966316, 63),
  (-1315673911892298936613835370593643376060412592653652307238124, 63),
  (9323261308672633862226517802548514100918088299801952307991569, 64),
  (4925152512628946192140957387866596210103778299388823500840094, 65),
  (-1651289885565054894616687709238000755898548214659776703347801, 64),
  (3067853757932549346649483228575476236600428217237900563128230, 65),
  (1044193057140813708170714991080596951670706436217328169641474, 65),
  (-4700416479360868325650195165061771321650383582970958556568059, 66),
  (5220035098454864691736424354843176976747052155243557001531901, 67)]

/-- `db14` (wavelets_coeffs.template.h L263-292). -/
def db14 : List Lit := [
  (6461153460087947818166397448622814272327159419201199218101404, 63),
  (6236475884939889832798566758434877428305333693407667164602518, 62),
  (2548502677926213536659077886778286686187042416367137443780084, 61),
  (5543056179408938359926831449851154844078269830951634609683997, 61),
  (6311878491048567795576617135358172348623952456570017289788809, 61),
  (2186706877589065214917475918217517051765774321270432059030273, 61),
  (-2716885522787480414142192476181171094604882465683330814311896, 61),
  (-2180335299932760447555558812702311911975240669470604752747127, 61),
  (1383952138648065910739939690021573713989900463229686119059119, 61),
  (1399890165844607012492943162271163440328221555614326181333683, 61),
  (-8674841156816968904560822066727795382979149539517503657492964, 62),
  (-7154895550404613073584145115173807990958069673129538099990913, 62),
  (5523712625921604411618834060533403397913833632511672157671107, 62),
  (2698140830791291697399031403215193343375766595807274233284349, 62),
  (-3018535154039063518714822623489137573781575406658652624883756, 62),
  (-5615049530356959133218371367691498637457297203925810387698680, 63),
  (1278949326633340896157330705784079299374903861572058313481534, 62),
  (-7462189892683849371817160739181780971958187988813302900435487, 64),
  (-3849638868022187445786349316095551774096818508285700493058915, 63),
  (1061691085606761843032566749388411173033941582147830863893939, 63),
  (7080211542355278586442977697617128983471863464181595371670094, 64),
  (-3868319473129544821076663398057314427328902107842165379901468, 64),
  (-4177724577037259735267979539839258928389726590132730131054323, 65),
  (6875504252697509603873437021628031601890370687651875279882727, 65),
  (-1033720918457077394661407342594814586269272509490744850691443, 65),
  (-4389704901781394115254042561367169829323085360800825718151049, 66),
  (1724994675367812769885712692741798523587894709867356576910717, 66),
  (-1787139968311359076334192938470839343882990309976959446994022, 67)]

/-- `db15` (wavelets_coeffs.template.h L294-325). -/
def db15 : List Lit := [
  (4538537361578898881459394910211696346663671243788786997916513, 63),
  (4674339489276627189170969334843575776579151700214943513113197, 62),
  (2060238639869957315398915009476307219306138505641930902702047, 61),
  (4926317717081396236067757074029946372617221565130932402160160, 61),
  (6458131403574243581764209120106917996432608287494046181071489, 61),
  (3390025354547315276912641143835773918756769491793554669336690, 61),
  (-1932041396091454287063990534321471746304090039142863827937754, 61),
  (-2888825965669656462484125009822332981311435630435342594971292, 61),
  (6528295284877281692283107919869574882039174285596144125965101, 62),
  (1901467140071229823484893116586020517959501258174336696878156, 61),
  (-3966617655579094448384366751896200668381742820683736805449745, 62),
  (-1111209360372316933656710324674058608858623762165914120505657, 61),
  (3387714392350768620854817844433523770864744687411265369463195, 62),
  (5478055058450761268913790312581879108609415997422768564244845, 62),
  (-2576700732843996258594525754269826392203641634825340138396836, 62),
  (-2081005016969308167788483424677000162054657951364899040996166, 62),
  (1508391802783590236329274460170322736244892823305627716233968, 62),
  (5101000360407543169708860185565314724801066527344222055526631, 63),
  (-6487734560315744995181683149218690816955845639388826407928967, 63),
  (-2417564907616242811667225326300179605229946995814535223329411, 64),
  (1943323980382211541764912332541087441011424865579531401452302, 63),
  (-3734823541376169920098094213645414611387630968030256625740226, 64),
  (-3595652443624688121649620075909808858194202454084090305627480, 64),
  (1558964899205997479471658241227108816255567059625495915228603, 64),
  (2579269915531893680925862417616855912944042368767340709160119, 65),
  (-2813329626604781364755324777078478665791443876293788904267255, 65),
  (3362987181737579803124845210420177472134846655864078187186304, 66),
  (1811270407940577083768510912285841160577085925337507850590290, 66),
  (-6316882325881664421201597299517657654166137915121195510416641, 67),
  (6133359913305752029056299460289788601989190450885396512173845, 68)]

/-- `db16` (wavelets_coeffs.template.h L327-360). -/
def db16 : List Lit := [
  (3189220925347738029769547564645958687067086750131428767875878, 63),
  (3490771432367334641030147224023020009218241430503984146140054, 62),
  (1650642834888531178991252730561134811584835002342723240213592, 61),
  (4303127228460038137403925424357684620633970478036986773924646, 61),
  (6373563320837888986319852412996030536498595940814198125967751, 61),
  (4402902568863569000390869163571679288527803035135272578789884, 61),
  (-8975108940248964285718718077442597430659247445582660149624718, 62),
  (-3270633105279177046462905675689119641757228918228812428141723, 61),
  (-2791820813302827668264519595026873204339971219174736041535479, 62),
  (2111906939471042887209680163268837900928491426167679439251042, 61),
  (2734026375271604136485245757201617965429027819507130220231500, 62),
  (-1323883055638103904500474147756493375092287817706027978798549, 61),
  (-6239722752474871765674503394120025865444656311678760990761458, 63),
  (7592423604427631582148498743941422461530405946100943351940313, 62),
  (-7588974368857737638494890864636995796586975144990925400097160, 63),
  (-3688839769173014233352666320894554314718748429706730831064068, 62),
  (1029765964095596941165000580076616900528856265803662208854147, 62),
  (1399376885982873102950451873670329726409840291727868988490100, 62),
  (-6990014563413916670284249536517288338057856199646469078115759, 63),
  (-3644279621498389932169000540933629387055333973353108668841215, 63),
  (3128023381206268831661202559854678767821471906193608117450360, 63),
  (4078969808497128362417470323406095782431952972310546715071397, 64),
  (-9410217493595675889266453953635875407754747216734480509250273, 64),
  (1142415200387223926440228099555662945839684344936472652877091, 64),
  (1747872452253381803801758637660746874986024728615399897971953, 64),
  (-6103596621410935835162369150522212811957259981965919143961722, 65),
  (-1394566898820889345199078311998401982325273569198675335408707, 65),
  (1133660866127625858758848762886536997519471068203753661757843, 65),
  (-1043571342311606501525454737262615404887478930635676471546032, 66),
  (-7363656785451205512099695719725563646585445545841663327433569, 67),
  (2308784086857545866405412732942006121306306735866655525372544, 67),
  (-2109339630100743097000572623603489906836297584591605307745349, 68)]

/-- `db17` (wavelets_coeffs.template.h L362-397). -/
def db17 : List Lit := [
  (2241807001037312853535962677074436914062191880560370733250531, 63),
  (2598539370360604338914864591720788315473944524878241294399948, 62),
  (1312149033078244065775506231859069960144293609259978530067004, 61),
  (3703507241526411504492548190721886449477078876896803823650425, 61),
  (6109966156846228181886678867679372082737093893358726291371783, 61),
  (5183157640569378393254538528085968046216817197718416402439904, 61),
  (2731497040329363500431250719147586480350469818964563003672942, 62),
  (-3283207483639617360909665340725061767581597698151558024679130, 61),
  (-1265997522158827028744679110933825505053966260104086162103728, 61),
  (1973105895650109927854047044781930142551422414135646917122284, 61),
  (1011354891774702721509699856433434802196622545499664876109437, 61),
  (-1268156917782863110948571128662331680384792185915017065732137, 61),
  (-5709141963167692728911239478651382324161160869845347053990144, 62),
  (8110598665416088507965885748555429201024364190954499194020678, 62),
  (2231233617810379595339136059534813756232242114093689244020869, 62),
  (-4692243838926973733300897059211400507138768125498030602878439, 62),
  (-3270955535819293781655360222177494452069525958061609392809275, 63),
  (2273367658394627031845616244788448969906713741338339498024864, 62),
  (-3042989981354637068592482637907206078633395457225096588287881, 63),
  (-8602921520322854831713706413243659917926736284271730611920986, 63),
  (2967996691526094872806485060008038269959463846548378995044195, 63),
  (2301205242153545624302059869038423604241976680189447476064764, 63),
  (-1436845304802976126222890402980384903503674530729935809561434, 63),
  (-3281325194098379713954444017520115075812402442728749700195651, 64),
  (4394654277686436778385677527317841632289249319738892179465910, 64),
  (-2561010956654845882729891210949920221664082061531909655178413, 65),
  (-8204803202453391839095482576282189866136273049636764338689593, 65),
  (2318681379874595084482068205706277572106695174091895338530734, 65),
  (6990600985076751273204549700855378627762758585902057964027481, 66),
  (-4505942477222988194102268206378312129713572600716499944918416, 66),
  (3016549609994557415605207594879939763476168705217646897702706, 67),
  (2957700933316856754979905258816151367870345628924317307354639, 67),
  (-8423948446002680178787071296922877068410310942222799622593133, 68),
  (7267492968561608110879767441409035034158581719789791088892046, 69)]

/-- `db18` (wavelets_coeffs.template.h L399-436). -/
def db18 : List Lit := [
  (1576310218440760431540744929939777747670753710991660363684429, 63),
  (1928853172414637705921391715829052419954667025288497572236714, 62),
  (1035884658224235962241910491937253596470696555220241672976224, 61),
  (3146789413370316990571998255652579931786706190489374509491307, 61),
  (5718268077666072234818589370900623419393673743130930561295324, 61),
  (5718016548886513352891119994065965025668047882818525060759395, 61),
  (1472231119699281415750977271081072312557864107355701387801677, 61),
  (-2936540407365587442479030994981150723935710729035053239661752, 61),
  (-2164809340051429711237678625668271471437937235669492408388692, 61),
  (1495339755653777893509301738913667208804816691893765610261943, 61),
  (1670813127632574045149318139950134745324205646353988083152250, 61),
  (-9233188415084628060429372558659459731431848000144569612074508, 62),
  (-1067522466598284855932200581614984861385266404624112083917702, 61),
  (6488721621190544281947577955141911463129382116634147846137149, 62),
  (5705124773853688412090768846499622260596226120431038524600676, 62),
  (-4452614190298232471556143559744653492971477891439833592755034, 62),
  (-2373321039586000103275209582665216110197519330713490233071565, 62),
  (2667070592647059029987908631672020343207895999936072813363471, 62),
  (6262167954305707485236093144497882501990325204745013190268052, 63),
  (-1305148094661200177277636447600807169755191054507571666606133, 62),
  (1186300338581174657301741592161819084544899417452317405185615, 64),
  (4943343605466738130665529516802974834299638313366477765295203, 63),
  (-1118732666992497072800658855238650182318060482584970145512687, 63),
  (-1340596298336106629517567228251583609823044524685986640323942, 63),
  (6284656829651457125619449885420838217551022796301582874349652, 64),
  (2135815619103406884039052814341926025873200325996466522543440, 64),
  (-1986485523117479485798245416362489554927797880264017876139605, 64),
  (-1535917123534724675069770335876717193700472427021513236587288, 67),
  (3741237880740038181092208138035393952304292615793985030731363, 65),
  (-8520602537446695203919254911655523022437596956226376512305917, 66),
  (-3332634478885821888782452033341036827311505907796498439829337, 66),
  (1768712983627615455876328730755375176412501359114058815453100, 66),
  (-7691632689885176146000152878539598405817397588156525116769908, 68),
  (-1176098767028231698450982356561292561347579777695396953528141, 67),
  (3068835863045174800935478294933975372450179787894574492930570, 68),
  (-2507934454948598267195173183147126731806317144868275819941403, 69)]

/-- `db19` (wavelets_coeffs.template.h L438-477). -/
def db19 : List Lit := [
  (1108669763181710571099154195209715164245299677773435932135455, 63),
  (1428109845076439737439889152950199234745663442163665957870715, 62),
  (8127811326545955065296306784901624839844979971028620366497726, 62),
  (2643884317408967846748100380289426873862377807211920718417385, 61),
  (5244363774646549153360575975484064626044633641048072116393160, 61),
  (6017045491275378948867077135921802620536565639585963293313931, 61),
  (2608949526510388292872456675310528324172673101301907739925213, 61),
  (-2280913942154826463746325776054637207093787237086425909534822, 61),
  (-2858386317558262418545975695028984237217356095588335149922119, 61),
  (7465226970810326636763433111878819005865866149731909656365399, 62),
  (2123497433062784888090608567059824197077074200878839448416908, 61),
  (-3351854190230287868169388418785731506977845075238966819814032, 62),
  (-1427856950387365749779602731626112812998497706152428508627562, 61),
  (2758435062562866875014743520162198655374474596963423080762818, 62),
  (8690675555581223248847645428808443034785208002468192759640352, 62),
  (-2650123625012304089901835843676387361075068017686747808171345, 62),
  (-4567422627723090805645444214295796017938935732115630050880109, 62),
  (2162376740958504713032984257172372354318097067858752542571020, 62),
  (1937554988917612764637094354457999814496885095875825546406963, 62),
  (-1398838867853514163250401235248662521916813867453095836808366, 62),
  (-5866922281012174726584493436054373773814608340808758177372765, 63),
  (7040747367105243153014511207400620109401689897665383078229398, 63),
  (7689543592575483559749139148673955163477947086039406129546422, 64),
  (-2687551800701582003957363855070398636534038920982478290170267, 63),
  (3418086534585957765651657290463808135214214848819517257794031, 64),
  (7358025205054352070260481905397281875183175792779904858189494, 64),
  (-2606761356786280057318315130897522790383939362073563408613547, 64),
  (-1246007917341587753449784408901653990317341413341980904757592, 64),
  (8711270467219922965416862388191128268412933893282083517729443, 65),
  (5105950487073886053049222809934231573687367992106282669389264, 66),
  (-1664017629715494454620677719899198630333675608812018108739144, 65),
  (3010964316296526339695334454725943632645798938162427168851382, 66),
  (1531931476691193063931832381086636031203123032723477463624141, 66),
  (-6862755657769142701883554613486732854452740752771392411758418, 67),
  (1447088298797844542078219863291615420551673574071367834316167, 68),
  (4636937775782604223430857728210948898871748291085962296649320, 68),
  (-1116402067035825816390504769142472586464975799284473682246076, 68),
  (8666848838997619350323013540782124627289742190273059319122840, 70)]

/-- `db20` (wavelets_coeffs.template.h L479-520). -/
def db20 : List Lit := [
  (7799536136668463215861994818889370970510722039232863880031127, 64),
  (1054939462495039832454480973015641498231961468733236691299796, 62),
  (6342378045908151497587346582668785136406523315729666353643372, 62),
  (2199421135513970450080335972537209392121306761010882209298252, 61),
  (4726961853109016963710241465101446230757804141171727845834637, 61),
  (6104932389385938201631515660084201906858628924695448898824748, 61),
  (3615022987393310629195602665268631744967084723079677894136358, 61),
  (-1392120880114838725806970545155530518264944915437808314813582, 61),
  (-3267868004340349674031122837905370666716645587480021744425550, 61),
  (-1672708830907700757517174997304297054003744303620479394006890, 62),
  (2282910508199163229728429126648223086437547237250290835639880, 61),
  (3985024645777120219790581076522174181104027576954427684456660, 62),
  (-1554587507072679559315307870562464374359996091752285157077477, 61),
  (-2471682733861358401587992299169922262915151413349313513685587, 62),
  (1022917191744425578861013681016866083888381385233081516583444, 61),
  (5632246857307435506953246988215209861566800664402785938591145, 63),
  (-6172289962468045973318658334083283558209278762007041823250642, 62),
  (5874681811811826491300679742081997167209743446956901841959711, 63),
  (3229429953076958175885440860617219117564558605035979601073235, 62),
  (-8789324923901561348753650366700695916503030939283830968151332, 63),
  (-1381052613715192007819606423860356590496904285724730356602106, 62),
  (6721627302259456835336850521405425560520025237915708362002910, 63),
  (4420542387045790963058229526673514088808999478115581153468068, 63),
  (-3581494259609622777556169638358238375765194248623891034940330, 63),
  (-8315621728225569192482585199373230956924484221135739973390038, 64),
  (1392559619323136323905254999347967283760544147397530531142397, 63),
  (-5349759843997695051759716377213680036185796059087353172073952, 65),
  (-3851047486992176060650288501475716463266233035937022303649838, 64),
  (1015328897367029050797488785306056522529979267572003990901472, 64),
  (6774280828377729558011184406727978221295796652200819839464354, 65),
  (-3710586183394712864227221271216408416958225264980612822617745, 65),
  (-4376143862183996810373095822528607606900620592585762190542483, 66),
  (7241248287673620102843105877497181565468725757387007139555885, 66),
  (-1011994010018886150340475413756849103197395069431085005709201, 66),
  (-6847079597000556894163334787575159759109091330092963990364192, 67),
  (2633924226270001084129057791994367121555769686616747162262697, 67),
  (2014322023550512694324757845944026047904414136633776958392681, 70),
  (-1814843248299695973210605258227024081458531110762083371310917, 68),
  (4056127055551832766099146230616888024627380574113178257963252, 69),
  (-2998836489619319566407767078372705385732460052685621923178375, 70)]

/-- `db21` (wavelets_coeffs.template.h L522-564). -/
def db21 : List Lit := [
  (5488225098526837086776336675992521426750673054588245523834775, 64),
  (7776639052354783754338787398088799862510779059555623704879234, 63),
  (4924777153817727491399853378340056968104483161598320693657954, 62),
  (1813596254403815156260378722764624190931951510708050516519181, 61),
  (4196879449393627730946850609089266339973601543036294871772653, 61),
  (6015060949350038975629880664020955953066542593896126705346122, 61),
  (4445904519276003403643290994523601016151342743089878478478962, 61),
  (-3572291961725529045922914178005307189036762547143966578066838, 62),
  (-3356640895305295094832978867114363069987575282256098351499731, 61),
  (-1123970715684509813515004981340306901641824212464197973490295, 61),
  (2115645276808723923846781645238468659430862736248896128529373, 61),
  (1152332984396871041993434411681730428103160016594558944687967, 61),
  (-1399404249325472249247758764839776903226503657502071670245304, 61),
  (-8177594298086382887387303634193790542522570670234556157566786, 62),
  (9660039032372422070232189700372539681627783322249829842275517, 62),
  (4572340574922879239251202944731235421034828710753381191345186, 62),
  (-6497750489373232063332311106008616685748929419452249544690967, 62),
  (-1865385920211851534093244412008141266131208093007217139232170, 62),
  (3972683542785044175197464400756126818299918992482587866999707, 62),
  (3357756390338110842532604766376200760791669954106679933144723, 63),
  (-2089205367797907948785235479746212371728219866525211135343707, 62),
  (2403470920805434762380632169785689545910525667396313550679652, 63),
  (8988824381971911875349463398395464114417817949738911101372312, 63),
  (-2891334348588901247375268718015882610844675931117463495551958, 63),
  (-2958374038932831280750770228215510959830170264176955719827510, 63),
  (1716607040630624138494506282569230126333308533535502799235333, 63),
  (6394185005120302146432543767052865436099994387647359452249347, 64),
  (-6906711170821016507268939228893784790518270744313525548714065, 64),
  (-3196406277680437193708834220804640347636984901270948088339102, 65),
  (1936646504165080615323696689856004910579777568504218782029027, 64),
  (-3635520250086338309442855006186370752206331429871136596927137, 65),
  (-3499665984987447953974079490046597240276268044409625722689849, 65),
  (1535482509276049283124233498646050472096482329299719141107128, 65),
  (2790330539814487046106169582691767916283793946025922387556917, 66),
  (-3090017164545699197158555936852697325985864588418167982685400, 66),
  (3166095442367030556603889009833954440058545355777781782000278, 67),
  (2992136630464852794401294607536813682771292352506328096125857, 67),
  (-1000400879030597332045460600516621971679363965166249211063755, 67),
  (-2254014974673330131563184851456825991617915549643308754828159, 69),
  (7058033541231121859020947976903904685464512825731230495144226, 69),
  (-1471954197650365265189549600816698778213247061389470277337173, 69),
  (1038805571023706553035373138760372703492942617518816122570050, 70)]

/-- `db22` (wavelets_coeffs.template.h L566-610). -/
def db22 : List Lit := [
  (3862632314910982158524358900615460368877852009576899680767316, 64),
  (5721854631334539120809783403484493333555361591386208129183833, 63),
  (3806993723641108494769873046391825574447727068953448390456335, 62),
  (1483675408901114285014404448710249837385836373168215616427030, 61),
  (3677286834460374788614690818452372827430535649696462720334897, 61),
  (5784327310095244271421181831735444106385099957908657145590104, 61),
  (5079010906221639018391523325390716836568713192498711562711282, 61),
  (7372450118363015165570139016530653113725172412104955350368114, 62),
  (-3127265804282961918033226222621788537078452535993545440716988, 61),
  (-2005684061048870939324361244042200174132905844868237447130382, 61),
  (1640931881067664818606223226286885712554385317412228836705888, 61),
  (1799731879928913037252154295313083168387840791424988422757762, 61),
  (-9711079840911470969274209179691733251456735137994201552926799, 62),
  (-1317681376866834107513648518146838345477875022352088357523838, 61),
  (6807631439273221556739202147004580559367442550641388181886023, 62),
  (8455737636682607503362813659356786494357635805197410905877078, 62),
  (-5136425429744413245727949984018884707909441768477091944584584, 62),
  (-4653081182750671347875833607846979997825771277976548080904423, 62),
  (3697084662069802057615318892988581825637896696876361343354380, 62),
  (2058670762756536044060249710676656807281671451609632981487139, 62),
  (-2348000134449318868560142854519364987363882333754753819791381, 62),
  (-6213782849364658499069336123807608293122900450508440420104462, 63),
  (1256472521834337406887017835495604463815382993214296088172221, 62),
  (3001373985076435951229129255588255746904937042979316054485183, 64),
  (-5455691986156717076595353163071679107868762395367234726592273, 63),
  (1044260739186025323350755659184734060807432172611689413745029, 63),
  (1827010495657279080112597436850157110235336772062961041154607, 63),
  (-7706909881231196232880372722955519781655769913634565757339739, 64),
  (-4237873998391800799531947768003976978197438302533528661825758, 64),
  (3286094142136787341983758471405935405823323072829619248523697, 64),
  (4345899904532003379046992625575076092823809665933575578710696, 65),
  (-9405223634815760421845190098352673647881298980040512091599943, 65),
  (1137434966212593172736144274866639210339820203135670505287250, 65),
  (1737375695756189356163565074505405906859746605867772002320509, 65),
  (-6166729316467578372152251668422979152169587307212708981768966, 66),
  (-1565179131995160159307426993578204733378112742579926503832095, 66),
  (1295182057318877573889711232345068147800395721925682566394936, 66),
  (-8779879873361286276888117046153049053917243760475816789226764, 68),
  (-1283336228751754417819693932114064887075096030264748079976736, 67),
  (3761228749337362366156711648187743399164239397803629022612862, 68),
  (1680171404922988885554331183691280245962290247654438114807112, 69),
  (-2729623146632976083449327361739104754443221903317745768938846, 69),
  (5335938821667489905169783227036804533253011117886586305435615, 70),
  (-3602113484339554703794807810939301847299106970237814334104274, 71)]

/-- `db23` (wavelets_coeffs.template.h L612-658). -/
def db23 : List Lit := [
  (2719041941282888414192673609703302357098336003920923958924757, 64),
  (4202748893183833538390034372523511472345215563611003407984701, 63),
  (2931000365788411514736204018929480427874317460676079959515131, 62),
  (1205155317839719336306053895611899089004274336891709067958035, 61),
  (3184508138528652363416527748460472152790575031409830417259640, 61),
  (5449311478735204282674240672421984387504149924834544495466793, 61),
  (5510185172419193913452724227212507720514144116478727269717859, 61),
  (1813926253638400136259098302138614937264260737638175539416540, 61),
  (-2613921480306441118856795735210118413900307577511142987337375, 61),
  (-2714020986078430556604069575184718123763697177381058877113471, 61),
  (9212540708241805260646030910734894258577648089100630012130261, 62),
  (2235736582420402317149513960822561717689875252792817094811874, 61),
  (-3303744709428937875006612792463031409461636228731285046551636, 62),
  (-1640113215318759250156057837165276039181451149292112929401186, 61),
  (2028307457564929974897286607551313323418860610791382310375731, 62),
  (1122970436181072886950734465075645977754665593869789965874572, 61),
  (-2112621235622724100704783293549467048999443844657058425212982, 62),
  (-7020739157490110946204219011957565343899895499962369353294028, 62),
  (2176585683449997560776882472168730165799461445156766923497545, 62),
  (3849533252256919901057154320407596073180564628069920893870768, 62),
  (-1852351365015615979794689960740674782817814176166333519597796, 62),
  (-1753710100303584537915846117408613551147985251726558719415169, 62),
  (1275194393152828646243157404474947115052750581861997731041018, 62),
  (6031840650024162816289878206037841640814102314209075233751820, 63),
  (-7075319273706152814194039481466556204493276773483821748740018, 63),
  (-1134865473356251691289337120013286756337393784110786907825400, 63),
  (3122876449818144997419144765125750522437659393621577492535411, 63),
  (-2465014005163512031940473100375377210862560761576109755841161, 64),
  (-1061231228886651321139357625683805642193648671030425010215075, 63),
  (3194204927099011503676530359692366990929679170022583007683112, 64),
  (2567624520078737205563856675376636092314813400664190770435450, 64),
  (-1500218503490340967673163290447832236259277810659068637402668, 64),
  (-3378894834120903434270962452674534330903724108906662510305045, 65),
  (4426071203109246077621875303440935335701832843654692827539837, 65),
  (-2635207889249186237209225933170897825432335273771458456888097, 66),
  (-8347875567854625544366043748844183086765894974439245409223337, 66),
  (2397569546840240057403739507525641239509517148980849889986407, 66),
  (8147574834779447778085443041422881439860288287528356019216814, 67),
  (-5339005405209421154584783682848780965053642859373536945701365, 67),
  (1853091785633965019353699857864654181728710556702529908304185, 68),
  (5417549179539278736503176166323685597634496102979977037271945, 68),
  (-1399935495437998845130909687361847103274208993447892120341999, 68),
  (-9472885901812050535221582074673490573092096712822067564903012, 70),
  (1050446453696543404071105111096438573423068913105255997908040, 69),
  (-1932405111313417542192651899622541612314066389643607507706887, 70),
  (1250203302351040941433216718217504240541423430995137507404787, 71)]

/-- `db24` (wavelets_coeffs.template.h L660-708). -/
def db24 : List Lit := [
  (1914358009475513695026138336474115599435172088053846745168462, 64),
  (3082081714905494436206199424544404720984720556128685270556458, 63),
  (2248233994971641072358415157184825628226776692231940577581580, 62),
  (9726223583362519663806545734008355914527504417674578571164300, 62),
  (2729089160677263268706137134412557268751671263458895098625356, 61),
  (5043710408399249919771876890402814109246866444441814540282099, 61),
  (5749392210955419968460807901923407033144945935105622912839838, 61),
  (2809855532337118833442626085115402941842959475929278883281409, 61),
  (-1872714068851562376981887159775791469060265778441667840307934, 61),
  (-3179430789993627375453948489797707550898087789160025182664299, 61),
  (4776613684344728187950198323031360866349104994035553200788631, 63),
  (2392373887803108551973268291945824822214858134512317715815616, 61),
  (4252872964148383258147364472170645232684343235486951540533893, 62),
  (-1711753513703468896897638515080572393949165942335556397917666, 61),
  (-3877717357792001620177594726199572688446488033750771020190283, 62),
  (1210163034692242362312637311149062286659377039046006801523826, 61),
  (2098011370914481534980883827326017063121637262728447783605518, 62),
  (-8216165420800166702291466006164189460916816748629968198028898, 62),
  (-4578436241819221637997516339765068825260159169893967894877272, 63),
  (5130162003998087915555334881398688958843078494595140394873884, 62),
  (-4944709428125628299815920032649550811877887219282751174798211, 63),
  (-2821310709490189098113895361900699228886900995412759197674058, 62),
  (7661721881646585897329899904308764405384658404613669817843430, 63),
  (1304997087108573583052494067883717533043101857128653233783396, 62),
  (-6291435370018187780721843581169343900864298634085743861509767, 63),
  (-4746568786323113800477796959513558401732252800905982385017245, 63),
  (3736046178282523345179052160810332868725126356493155728625572, 63),
  (1153764936839481504858282495202271984454410046682805375157566, 63),
  (-1696456818974824394274534636412116243080312601322325642741589, 63),
  (-4416184856141520063365958900079406737636243682138363561877750, 65),
  (5861270593183109933716735450272894035425792347806515678695765, 64),
  (-1181233237969554740613021227756568966806892308457221016257961, 64),
  (-1460079817762616838924301818082729036314539476811023255670666, 64),
  (6559388639305634085303738560455061974369354538271316071502698, 65),
  (2183241460466558363365044032984257709791187640963509380549307, 65),
  (-2022888292612697682860859987200455702614855595412267510558659, 65),
  (1341157750809114719319937553186023660581084151828593222893663, 68),
  (3901100338597702610409014129024223853127911530009766793352492, 66),
  (-8980253143938407724149926669980791166378388013293887718404796, 67),
  (-4032507756879971624098983247358983425236092110387724315244646, 67),
  (2166339653278574639176393978510246335478946697396400359281412, 67),
  (-5057645419792500308492508924343248979317507866520688417567606, 70),
  (-2255740388176086107368821674947175804005323153443170526520277, 68),
  (5157776789671999638950774266313208715015419699643333784626363, 69),
  (4748375824256231118094453549799175824526559994333227456737433, 70),
  (-4024658644584379774251499574468195118601698713554294941756559, 70),
  (6991801157638230974132696433509625934021677793453732225542951, 71),
  (-4342782503803710247259037552886749457951053124203814185811297, 72)]

/-- `db25` (wavelets_coeffs.template.h L710-760). -/
def db25 : List Lit := [
  (1348029793470188994578489247159356055370460656508881471268611, 64),
  (2256959591854779520121391049628056149270016860666661928130747, 63),
  (1718674125404015533817186914954848902241194002444696221013131, 62),
  (7803586287213267559750659320481403668422052199257139168386084, 62),
  (2316935078860218199900621518057089104946216881512075361624214, 61),
  (4596834151460945937896973864539659944010260858049947396093277, 61),
  (5816368967460577833534892038757085635755639698734580573323031, 61),
  (3678850748029466984371319740855532278670733841012809062966976, 61),
  (-9717464096463814276130048169040892607068486428294030952842447, 62),
  (-3364730796417461309562110148848845218930261030262170601615289, 61),
  (-8758761458765466140226687673880006154266689569025041229545538, 62),
  (2245378197451017129525176510409543155930843160711989062118482, 61),
  (1181552867199598604563067876819931882639429216001523151773895, 61),
  (-1505602137505796309518094206831433270850173484773520730186277, 61),
  (-9850861528996022153725952822686729410420350758543226219234795, 62),
  (1066338050184779528831274540522414711301747903916268438037723, 61),
  (6675216449401860666895983072443984697329752470942906490126865, 62),
  (-7708411105657419356208567671699032054872853174701595359329826, 62),
  (-3717396286112250887598137324046870459877639250821705817221557, 62),
  (5361790939877949960629041419546536897037332284703545849594129, 62),
  (1554260592910229163981295854603203625062268043511894295387375, 62),
  (-3404232046065334099320628584033729153497903561399447916116575, 62),
  (-3079836794847036661636693963570288706232460663070983852354326, 63),
  (1892280447662762841086581178691039363674755753459524525886478, 62),
  (-1989425782202736494289461896386235348901617760816745484282494, 63),
  (-8860702618046368399013064252456556969199612331833605310278698, 63),
  (2726936258738495739871469244610042793734119359765762028996059, 63),
  (3322707773973191780118197357194829286271392998979276105842863, 63),
  (-1842484290203331280837780430014195744813667655929909114672154, 63),
  (-8999774237462950491085382524008429604309720852269895692000702, 64),
  (8772581936748274843488806190175921376284150686011179612908221, 64),
  (1153212440466300456460181455345639872216326644527860903202733, 64),
  (-3098800990984697989530544245356271119416614147098459162436317, 64),
  (3543714523276059005284289830559259809540337561365927850248007, 65),
  (7904640003965528255137496303166001735463107762646364003487560, 65),
  (-2733048119960041746353244004225286857636045649642652816856524, 65),
  (-1277195293199783804144903848434605690990373526086311486716394, 65),
  (8990661393062588905369930197413951232059323587543226269327396, 66),
  (5232827708153076417963912065899772684403904504491727061662335, 67),
  (-1779201332653634562565948556039009149458987774189389221295909, 66),
  (3212037518862519094895005816661093988294166712919881121802831, 67),
  (1922806790142371601278104244711267420759978799176017569693322, 67),
  (-8656941732278507163388031517930974947984281611717187862530250, 68),
  (-2611598556111770864259843089151782206922842627174274274741722, 69),
  (9279224480081372372250073354726511359667401736947170444723772, 69),
  (-1880415755062155537197782595740975189878162661203102565611681, 69),
  (-2228474910228168899314793352064795957306403503495743572518755, 70),
  (1535901570162657197021927739530721955859277615795931442682785, 70),
  (-2527625163465644811048864286169758128142169484216932624854015, 71),
  (1509692082823910867903367712096001664979004526477422347957324, 72)]

/-- `db26` (wavelets_coeffs.template.h L762-814). -/
def db26 : List Lit := [
  (9493795750710592117802731381148054398461637804818126397577999, 65),
  (1650520233532988247022384885622071050555268137055829216839523, 63),
  (1309755429255850082057770240106799154079932963479202407364818, 62),
  (6227474402514960484193581705107415937690538641013309745983962, 62),
  (1950394387167700994245891508369324694703820522489789125908612, 61),
  (4132929622783563686116108686666547082846741228042232731476147, 61),
  (5736690430342222603195557147853022060758392664086633396520345, 61),
  (4391583117891662321931477565794105633815363384084590559889493, 61),
  (1774076780986685727823533562031556893226571319881417676492595, 63),
  (-3263845936917800216385340830055349953447745005769416287177497, 61),
  (-1748399612893925042664835683606584215248582345438816346170042, 61),
  (1812918323111226960705459766025430918716233584167982942044424, 61),
  (1827554095896723746537533832033286839689931924709760567945595, 61),
  (-1043239002859270439148009137202747658420968144330108510179290, 61),
  (-1479771932752544935782314546369458188243947772922980064071205, 61),
  (6982318611329236513756591683950208955110603212379412334701145, 62),
  (1064824052498086303236593797715344405836015002929319291715777, 61),
  (-5344856168148319149493577269390074213960237013099439431132086, 62),
  (-6865475960403591525454725258715351280947435823354011140858001, 62),
  (4223218579637203541206570902753288247790857760067894456114927, 62),
  (3853571597111186425832144567362328142994885395255438867968781, 62),
  (-3137811036306775484244644776337594435094096964336402798072360, 62),
  (-1776090356835818354094298625884058170354129044259951019182732, 62),
  (2073492017996382475887790073068984224515077665517103399898854, 62),
  (5829580555318887971939315747596613038479561943085291072787359, 63),
  (-1178549790619302893728624468402138072504226527540325463847390, 62),
  (-5287383992626814439198630765217969804966319971038003993984480, 64),
  (5601947239423804853206514239940474788977188460452053462770324, 63),
  (-9390582504738289646165698675070641765810790863514339205205998, 64),
  (-2145530281567620980305401403432221668847980295600748913748902, 63),
  (8383488056543616046381924054554052104937784379435436426690560, 64),
  (6161382204574344193703789012696411561214682388271673214197731, 64),
  (-4319557074261807466712901913481943478521991611607433971794602, 64),
  (-1060574748283803889966150803551837402553866816191659959347053, 64),
  (1574795238607493590547765666590811258087715699737771458390360, 64),
  (-5277795493037868976293566636015627609248847457646525246271036, 66),
  (-4109673996391477816326502438997466532822639385119090230965252, 65),
  (1074221540872195031273584409245060623104931330938273936484593, 65),
  (7000078682964986734859102495210684809643657474253921074934684, 66),
  (-3887400161856795187587790410706550576033603097954065074023128, 66),
  (-4650463220640262639231145944536092973446596027469833860001618, 67),
  (7939210633709952088373459255067360793370284788682979065122810, 67),
  (-1079004237578671411922961583845716126060658213943840375162654, 67),
  (-8904466370168590769052983362721567202750591914741016835071257, 68),
  (3407795621290730008673832107214820587991557116806912418558069, 68),
  (2169328259850323106986222296525930099935873861026310788086221, 69),
  (-3776010478532324328184043667556576385639846460337894963138621, 69),
  (6780047245828636668305808192607091517605349478677442468580825, 70),
  (1002303191046526913509281844136258004034177309673269533418644, 70),
  (-5840408185341171468465492447799819262905317576847426970757700, 71),
  (9130510016371796243923232926650252570239054815939483900056681, 72),
  (-5251871224244435037810503452564279828539007071678724285717464, 73)]

/-- `db27` (wavelets_coeffs.template.h L816-870). -/
def db27 : List Lit := [
  (6687131385431931734918880680779563307675740731544063787599480, 65),
  (1205531231673213234251999812212394463872002561229330125152073, 63),
  (9952588780876619771874091297340545740163119816300838847749336, 63),
  (4945259998290488004302995584228917712171023349013386944893643, 62),
  (1629220275023933206396286389387812803673796872000118325233533, 61),
  (3671102141253898226423388094379126394383458407087000700420400, 61),
  (5538498609904800487605460395549044755068663194750017660900436, 61),
  (4934061226779989979265447084358038959373468583404767251300717, 61),
  (1028408550618229112710739475157388764479351682549490307668477, 61),
  (-2897168033145948463175311101489473923261698802610323264603418, 61),
  (-2482645819032605667810198368127693701263349361209208170092197, 61),
  (1148230195177853576326445213787661879970642975306605349249036, 61),
  (2272732884141708265275037216925482827043581894357907763081103, 61),
  (-3878641863180231062443346843661817078060143110529946543683356, 62),
  (-1780317409590085821070366277249759321269342801053489323888575, 61),
  (1579939746024048431173907799261019471878724997312653292884660, 62),
  (1311979717171553289711406975836688896451835867594492827800969, 61),
  (-1406275155580876537026622167053147161846397735962817855782362, 62),
  (-9102290652956591798241345515773322449830692586525337562864481, 62),
  (1731101826549371089085675445961947677452358872325373949295769, 62),
  (5796940573471798814748840657698008349462526768238833307489106, 62),
  (-1851249356199807710545837861298826718763077900221574749342712, 62),
  (-3273906663102087145481936428049519742538150452785563039743756, 62),
  (1614696692239566682272152627542980896527822528487665111124260, 62),
  (1566559564892457873003263983940819950829497022298967052103291, 62),
  (-1157718645897628140054089958116866381056430680879332334217267, 62),
  (-5862096345462925972966025215266179082657169806555503857975278, 63),
  (6856635609684880675273184141746359000591385833807880272568038, 63),
  (1342626877303679609082208800217479591902967766971379107017011, 63),
  (-3332854469520006162763300141047111065412307706449049389557931, 63),
  (1457529625931728587128588244152604734177322144376309490881599, 64),
  (1301177450244135139135787970279897042994109161268159963884641, 63),
  (-3418351226915427611946547437228006377896519777431057005796358, 64),
  (-3879018574101327604369144470124819695479087900682219330965466, 64),
  (2019719879690326857104208791272390315160018069955787875123234, 64),
  (7660058387068576876674274961751262847965101108848090019821555, 65),
  (-7711145517797584208411720507329584053382646435270054267102827, 65),
  (-3517483614907445391752737841583832374184046409747387149129674, 66),
  (2063442647736885318487206413360228908558806028468062177953960, 65),
  (-3901164070638425528170558032557368703418425915665413541985623, 66),
  (-3657500908187104997045760131046655906827644494899206692043298, 66),
  (1634369624725637835424610743915128591988676092276368687669255, 66),
  (3050880686251999094242671997731089918322345713516567387655763, 67),
  (-3472468147394389269364673179891460601330730511237974736379548, 67),
  (3286558968055159530983261866450459360074591641809187825408848, 68),
  (4026255052866908637178682747490340533992340623231336911661711, 68),
  (-1321332273990056558848617809101876846857728483295631388083263, 68),
  (-1309465606856955151282041809232358209226373823424148862843577, 69),
  (1521614984778521740775073159445241799352681846880808663329946, 69),
  (-2415526928011130660506395791946234018673860470542996426005750, 70),
  (-4374986224293654395069947682013996351823060759948583134078918, 71),
  (2213662088067662485181472969374945928903854605356443772873438, 71),
  (-3295790122476585807069953975043096139541415768606924980926275, 72),
  (1828188352882424933624530026056448539377272017834175009418822, 73)]

/-- `db28` (wavelets_coeffs.template.h L872-928). -/
def db28 : List Lit := [
  (4710807775014051101066545468288837625869263629358873937759173, 65),
  (8794985159843870273564636742144073059158975665525081816488582, 64),
  (7542650377646859177160195786201116927568410621050693986450538, 63),
  (3909260811540534426092083794403768111329778710541126982205076, 62),
  (1351379142536410450770749411679708279921694061092200363031937, 61),
  (3225633612855224257318486139030596702170126503618082416187649, 61),
  (5249982316303355562348293243640252929543774162151269406404636, 61),
  (5305162934414858075256978195354516449402692654391295761050628, 61),
  (2001761440459844380384404537971725815970574972480152145882083, 61),
  (-2304989540475825257279397658067038304888129374484095837624889, 61),
  (-3013278095326417816909366061441334075444383937588485826752087, 61),
  (3285787916338710468450547883547348694255260871071954509422161, 62),
  (2458081513737595535752949960866466132239832334168533456626848, 61),
  (3690688531571127205290633425993077868843846977265847006108551, 62),
  (-1828773307329849166920408764650763092868965221608724574218473, 61),
  (-4683823374455167616514752420549419665215987106243491879971921, 62),
  (1346275679102260877490923315484152662987698625205479167761416, 61),
  (3447863127509970524678534595639646616244376966117385829345554, 62),
  (-9768535580565244174963692133038973587005628990493154911133358, 62),
  (-1734192283130589908795581592406238282930530566316914040035812, 62),
  (6774789550190933956165341752699717255041141690153626336867769, 62),
  (3448018955540951137600471926079622335842207388713342609755316, 63),
  (-4333336861608628393863254980828284403766309203453808666888800, 62),
  (4431732910062988320487418656322338284504389482966303454010563, 63),
  (2468806001015186586264188361362046240243934625858343309818244, 62),
  (-6815549764552309639259447104811254179605050667281644254737890, 63),
  (-1206359196821849005842466619530619474644989878503490321948471, 62),
  (5838816627748944864497370576838809711476027837762897602935327, 63),
  (4784863112454241718009916669120329848973107781600157214960003, 63),
  (-3725461247074254799171427871442937099025589672466088044410521, 63),
  (-1360373845639692436577650137133777929659265166644839235882291, 63),
  (1875998668202795626152766912508562385106168761893900192731562, 63),
  (1415672393140464257573780581396205840941849282748250523509874, 64),
  (-7486749559114629991320679819683227355746847370960399216568306, 64),
  (1154656063658921251969297916771881248142872975490882572741198, 64),
  (2295790982233456202366621544054366855729175050420515776344878, 64),
  (-8903901490044488099517361247378396756893227855233897357882978, 65),
  (-4907713416190250858324783990436748073854807494400738311968278, 65),
  (3641401211050802781223450761733180188911730291497201507086247, 65),
  (4638664981394294654002871426476885751050837817671843706915388, 66),
  (-1004326041333422601781848560432120920634648692782357855473103, 65),
  (1247900317574834146052381692752796047052443265982232422642017, 66),
  (1840363734517769191684379309039277810350620305330900536404818, 66),
  (-6670215479954892588747450458085225880096882699397256774967304, 67),
  (-1757461173209842779903676264971918635870906983281392939812547, 67),
  (1490660013535362170989340065033061951960933954388633507264360, 67),
  (-8262387315626556965966429243600984899650039704831080988658278, 69),
  (-1784138690875710077191713941441263246560738410213624546116655, 68),
  (5044047056383436444631252840057862002264087720676808580373667, 69),
  (6944540328946226952976704718677697525410051405055662575530111, 70),
  (-6077041247229010224760245305596307803830053533836849384680534, 70),
  (8492220011056382105461206077240377024404404638947591299761197, 71),
  (1867367263783390418963879146175452376940453585791428841004699, 71),
  (-8365490471258800799349289794397908900767054085216008197372193, 72),
  (1188850533405901520842321749021089497203940688882364518455403, 72),
  (-6367772354714857335632692092267254266368934590973693820942617, 74)]

/-- `db29` (wavelets_coeffs.template.h L930-988). -/
def db29 : List Lit := [
  (3318966279841524761813546359818075441349169975922439988843475, 65),
  (6409516803044434540833706729120596322083061716935004987374676, 64),
  (5702126517773375434760843998623507494914551464968126455168657, 63),
  (3077358022140837676716707336516751814713312018344719150923618, 62),
  (1113701169517405304762186166370327770191325772342190715118617, 61),
  (2806534559709829376968881262770480606500920092398534229615289, 61),
  (4897588047621993143592705932993573539235839610055331620240518, 61),
  (5513744327583751951223746071670135992466984391233429663886536, 61),
  (2891052383358291634605691113586264061513180158354460952469246, 61),
  (-1540287344599000542466293779503370141731339982919280951230240, 61),
  (-3300409489175880520295083779487012611959310539629627124613719, 61),
  (-5570680007294085781514541931715795784309410235726214400350351, 62),
  (2361052361530259415983110734054626770649468357328362426830433, 61),
  (1124191748731883764769740670535880543076817816861518667898467, 61),
  (-1608779885941877360771615465531852333085159940159968393590303, 61),
  (-1078459499387214201077881957354707913786241153934264316589273, 61),
  (1144722958938182579734135930060053286267822797640393386903440, 61),
  (8322074716244975790297348835032537357891920536002627784941129, 62),
  (-8512549261563550232832311331420804581881235448862834507281486, 62),
  (-5502748952532572320924541450626650067707344725344841099873446, 62),
  (6347916458421186633577789314698972361081611994794140119302163, 62),
  (3053154327270413646637328212093941030592133225231728964047047, 62),
  (-4518798127778834515979704475304405691390090327474972089790857, 62),
  (-1291714255426679462966473962555410660387671182428076570686472, 62),
  (2947043187174764111028122319949903667638786379520519899154373, 62),
  (2648327307678167915542397563479749119673768286990136051577167, 63),
  (-1704122457360668969234196743407615179099529206118693044741086, 62),
  (1737880332720511164430027824345354801611373419264590068097416, 63),
  (8469725493560752287772961661104710791306496373354237126998903, 63),
  (-2550807127789472659145072247724735637183590942511858255354005, 63),
  (-3473798989681100630649790255076233970957721666820195620598374, 63),
  (1877120925723650133179338154344873477230567340668548016358682, 63),
  (1087053942226062966738944397844498417945523630053411148182206, 63),
  (-1000778327085680541055696707760062870925897014530348262794137, 63),
  (-2000711363076779808296301110796026470163110202848894744316755, 64),
  (4111283454742767033424740543004041500054889660665367490129376, 64),
  (-2292018041214499897382298271438084577065170236103859181134525, 65),
  (-1293044840080720609161466939678226852440475312744714379499074, 64),
  (3645026068562774967665464216602750761690984830805534178557146, 65),
  (2913344750169041218495787251929571015775436967652945386217480, 65),
  (-1657328395306616289863396387854880512976861409870690029695161, 65),
  (-3593644804025187638066915189731950450034629392522542962477168, 66),
  (4750609246452552850197117564759363194953518317428400241629683, 66),
  (-3029054592052818286474228294307141792053791695855058563299597, 67),
  (-8975701750636280734511651941681818767895052287332471537510510, 67),
  (2633898386997696553900967704111473475368019612368922599394214, 67),
  (9387197411095863026484410601284876812292554863800653292318725, 68),
  (-6286156922010786166768503252870590953166867739448102804392389, 68),
  (1076591906619196137385201975028785139607670319821266803566785, 69),
  (7768978854770062238895964639391324551611701293594055935346266, 69),
  (-1893995386171984147774611076618946011337498790609031626697228, 69),
  (-3426800863263089001811012278889864200550342566386405676893537, 70),
  (2407099453509342962399811991929330725186626582891090462239366, 70),
  (-2940589250764532582888473974638273664244682541297835986306504, 71),
  (-7832509733627817032356556582819494794884131433810848844709881, 72),
  (3152762413370310423797539876893861621418382024668704492620948, 72),
  (-4285654870068344101898185073376307686875386259541180967347399, 73),
  (2219191311588302960934661700068023727737812918006011019184982, 74)]

/-- `db30` (wavelets_coeffs.template.h L990-1050). -/
def db30 : List Lit := [
  (2338616172731421471474407279894891960011661146356580425400538, 65),
  (4666379504285509336662000111055365140848987563882199035322085, 64),
  (4300797165048069510045016757402827408493482974782286966500398, 63),
  (2413083267158837895194919987958311943976725005113561262334092, 62),
  (9123830406701570679321575555085899708564500191080751595642650, 62),
  (2420206709402140994467599658342919512318194032687898436229538, 61),
  (4504878218533178366981351802898336415314944375740699506554771, 61),
  (5575722329128364304078082520999850413492571645754785374629734, 61),
  (3662426833716279793144871151369089533016299234992584741629624, 61),
  (-6618367077593731501909741041813726474911212544474895441395148, 62),
  (-3329669750208556069196849320598850505877494561268613506392514, 61),
  (-1419685133300829310219026267403758254954270602825020111483505, 61),
  (1994621215806643032428990062111230223523226088131364328774921, 61),
  (1778298732448367361280250921330425046260289700971176750362566, 61),
  (-1145582194327077814891518778613672243404957549114393749173137, 61),
  (-1572368179599938126878197378886501553251711910617673398124611, 61),
  (7277865897036442699893544326605244235248713804556715604416632, 62),
  (1227477460450093778691578797698150091624353365248212907325446, 61),
  (-5380646545825707676022015051837304300338645984615639237930800, 62),
  (-8765869003638366048026572053699028353846982304851342479893827, 62),
  (4380166467141773250305407710250135373016604593736480428415303, 62),
  (5671236574473569492590636983030617493807140224924978946302257, 62),
  (-3567339749675960965780819743176056734137251336781389369397564, 62),
  (-3226375891935220815954913483392725682165778426411705216010280, 62),
  (2707861959529418272206848318420006522973840949600186710327776, 62),
  (1528796076985739546052896626042375110302102640936712142026221, 62),
  (-1839974386811734118728169880549148389603890445324127330811811, 62),
  (-5296859666131086629169938675330494864053932988161015674773617, 63),
  (1091563165830488927536881480211929049886878831313700460017968, 62),
  (6196717564977244383592534999284255315694546230739551683085460, 64),
  (-5530730148192003288871383856487027893918513053091795443517653, 63),
  (8433845866620933982126003584365932145598126087481400294999080, 64),
  (2324520094060099304385756339638431339131122661576649123053845, 63),
  (-8609276968110423879660725173525347077801305237644122054954659, 64),
  (-7678782504380918697963922441514742758516706160788123977340073, 64),
  (5050948239033467796256544554086554367969638627715114003635557, 64),
  (1724825842351709725545759714374272164367933578194910678479473, 64),
  (-2161718301169633804271038862087964094429005266172702380483361, 64),
  (-8548305467584070994787824796256108217987765582429940610377190, 66),
  (6982008370808327851082027193100914402221658444151889697045071, 65),
  (-1339716863293971629296314599448901465078920406443516550195793, 65),
  (-1636152478725426488654528710478856195004608401773950511915162, 65),
  (7252145535890469015723401169934327900622894130695550273452916, 66),
  (2327549098493686509557358103785598216688723737824121617676858, 66),
  (-2187267676996166416699555236143059249832615777542412142603694, 66),
  (1099474338526203304286307383463498542376432972308342428764576, 68),
  (4261662326011572446469849114416378817419458434583398455985144, 67),
  (-1000414682354500898864979332965559934104686157639553850670490, 67),
  (-4764379965139453357729154748688006975561934425368712852985388, 68),
  (2605442754977625431940885841950955928085338672381046225838880, 68),
  (5553397861397053982967618072672572206490972606026556946910028, 70),
  (-3331105680467578245901976412732595596538702049437802824373020, 69),
  (6984862691832182584221096665570313611280449991512869846064780, 70),
  (1613622978270904360610418704685783656905979134344922647926295, 70),
  (-9461387997276802120884525814092001871993910062127702293573920, 71),
  (1000105131393171192746337860330428369495110180346654025287492, 71),
  (3239428638532286114355931428908079297696045600279108835760520, 72),
  (-1185237592101582328254231496310584611948560976394420324137742, 72),
  (1543997570847620046003616417646988780670333040868954794039905, 73),
  (-7737942630954405708679963277418806436871098329050829841696327, 75)]

/-- `db31` (wavelets_coeffs.template.h L1052-1114). -/
def db31 : List Lit := [
  (1648013386456140748122177817418358316441195236228590958603489, 65),
  (3394122037769956699157160165352942212213928231154233571163033, 64),
  (3236884068627721221829662672296912258338131668810067169630813, 63),
  (1885369161298591269159568944275763468999829139547989648553486, 62),
  (7433609301164788697908776495388047669378919816041031344650271, 62),
  (2070128744852353286198055444111916450619762837756134323019573, 61),
  (4091922000374278563928213235836188963704298775635493549519369, 61),
  (5511398409142754983590484577074663132074992263886810324421617, 61),
  (4294688082061372955430413148799008354573408538414331312236645, 61),
  (2716921249736946422305354732634261873401679092095992827198308, 62),
  (-3109551183195075186926560285811004715398678229333522634202008, 61),
  (-2179784855235633521693544507220105631639547435903112747133934, 61),
  (1401782887652732681656253206993073895422881511380152633441096, 61),
  (2249667114737370933697297905066886078307490136415302624018330, 61),
  (-4992634916046823977000579399730138693074543903234092797936484, 62),
  (-1869623608957154494374577196258383009208655076187653847079167, 61),
  (1543698842948893409652995335281236231845293548571166883219023, 62),
  (1450895009319931981518942907854879059128872873116921504156674, 61),
  (-8139832273469236863527708715566588550006680549152344840146851, 63),
  (-1076127733234956326668605511648013952380301953590447106075614, 61),
  (1094129745236496925725237900637802669504835743555466811796369, 62),
  (7535361174328140695528289751109133941376701984419452638686226, 62),
  (-1488002661810482202699555987503429289100801979910046913257306, 62),
  (-4861907546485433003537603385831190109391263542044516048871113, 62),
  (1615417156598591113619453864586701665635869166193865651960591, 62),
  (2804761936675616906861927211659154977049392281479113764697785, 62),
  (-1427627527776351943309800140756746087215016194775579070599004, 62),
  (-1390055293926652880755898888934447671732373519028670201124816, 62),
  (1051763948737184089128633441244991643331033825102031908858652, 62),
  (5516163573310992566561289762241160214476622662764637181816550, 63),
  (-6520852375874612553325469682628530079210293774541131381751695, 63),
  (-1428264223218909891400516038687842292177211292295049238921068, 63),
  (3393066776715931928419358796960612411097347419792355896915546, 63),
  (-6397901106014600492881202314307290077992972755016494062875201, 65),
  (-1459041741985160943114515221598080223845239255190055621901681, 63),
  (3431398296904734438118401084929505912208229684629857530009147, 64),
  (4998816175637222614896912406679513231966722440032799024979502, 64),
  (-2396583469402949615285646688069476140260781708006174912535660, 64),
  (-1243411617250228669409179807383399199879641177993453588807726, 64),
  (1089584350416766882738651833752634206358441308880869184416670, 64),
  (1501335727444532997071651937630983442758297688087711521441229, 65),
  (-3631255157860086164261313773172162991107348698083164489165837, 65),
  (4034520235184278839752741499546098778993926344831736074409765, 66),
  (8795301342692987765440618030678349427367022581211855857458220, 66),
  (-3035142365891509630069007852947057220760887215249503512783023, 66),
  (-1369060230942940782050489751987123955074404782177163471279285, 66),
  (9810015422044371573950976088058064384946146188110905321673802, 67),
  (5327250656974915426977440959783080593776012130063170688309127, 68),
  (-1975925129170206248152121156696590501303803187231928513867046, 67),
  (3616826517331004805247567218405798591329788122337274956172315, 68),
  (2328309713821409644308538888589329921141948539678106680777082, 68),
  (-1061529602150252306500404266150823962402673780484965538270541, 68),
  (-6474311687959861398702581539341954438747926255671605657095807, 70),
  (1408568151025177427076547804944585301332087108125727813194374, 69),
  (-2524043954153353306183643702933218308617979467184848456565837, 70),
  (-7348930032486263904766913919653624379586487437915175106407348, 71),
  (3692108808871129411604189196259677640440919369478263728899602, 71),
  (-3327008967125979929910636246337150851642079794871116041187279, 72),
  (-1324334917243963163878274345609465717294426628053460151843705, 72),
  (4445467096291932163298411852093011459626037560439178917611592, 73),
  (-5559442050579014337641375730083534521513818164827556763756543, 74),
  (2699382879762665647295493928801387173921314576598505507855504, 75)]

/-- `db32` (wavelets_coeffs.template.h L1116-1180). -/
def db32 : List Lit := [
  (1161463302135014885567464100760659332951431420121048996305591, 65),
  (2466566906380903352739104211274667134470169443886449124673996, 64),
  (2431261919572266100780423071905958127811969678055971488060574, 63),
  (1468104638141913563547809006402194831107662001343421893488086, 62),
  (6025749912033537081745451975527967031851677384078997261920024, 62),
  (1757507836394388988189299915753348505208376399651864661397588, 61),
  (3675096285973496361995340339143234125206079560406868595968025, 61),
  (5343179193409538322901117858552186425529774700290587495921679, 61),
  (4778091637339484033555130814414794130354053753675509287934741, 61),
  (1206305382656178269538098710665261299391507308342013788891222, 61),
  (-2666981814766755535489784087869865024226542605534080371507405, 61),
  (-2774215815584272153338153320303401666681294506143291967655666, 61),
  (6471335480551623831000090095167664918448659157720155321560811, 62),
  (2483106423568801736064852157222867588791898170114101300999760, 61),
  (2466244483969740441701479334808723214802614938081258920635302, 62),
  (-1921023447085468984341365278247990525863123891147783426068990, 61),
  (-4899511718467173853355943225576377418394280156945986899417475, 62),
  (1452320794752866460838830744051944832326998342053148426312341, 61),
  (4440490819993974022640619534046603571086531544468421519143629, 62),
  (-1094561131160893831027722774343269232755171130623890041619420, 61),
  (-2962787250844770491204452379051215505049068645551070779367843, 62),
  (8087414063848395744090831590426327690818854671836423275412813, 62),
  (1410615151610660772869738802931740150275269382463799031013905, 62),
  (-5692631406247843550478416271158537960555270097953330567652364, 62),
  (-2380264464932573834443178362086503847328134994591954135879789, 63),
  (3705145792354468010437633458013030898015496905609424004450953, 62),
  (-4145907660827218781460700428862611061267328108653649653634276, 63),
  (-2166282283639119347634778516947485598599029367518033869601702, 62),
  (6167527310685675112579059689520105004744367282412921739811164, 63),
  (1101740071540688116532806119564345712473051769079712407908648, 62),
  (-5411568257275791208581502410752383050600045942275647685361370, 63),
  (-4649216751184411528658094984504900172989190128905887602541396, 63),
  (3627224640687864960122122984391704782343548385375321260251988, 63),
  (1468955100468467772528811782840480639166582822577191079260543, 63),
  (-1964740555821778254183647540656746450092725858126595984907304, 63),
  (-2211678729579097916278097586914956834196749138610403102772710, 64),
  (8673058518450555343925662389563539890596549655683386287799624, 64),
  (-1024537310607396186949656796812972062290796122915930356634122, 64),
  (-3059654423826911750479261161552574500739091332121504634422577, 64),
  (1053915461739828114700905192091104141076083602686374410146603, 64),
  (8103678329134838389828091896334156224227821362491626044950428, 65),
  (-5259809282684322782648914338377962890245975842272425408122506, 65),
  (-1294045779405512723950480259110995722517019870286295908085366, 65),
  (1824268401980691220603850117995712615809177092802967489081228, 65),
  (-6361781532260254953363913076575914206506177493714496098327288, 67),
  (-4558309576264423135123964145585288808181431652781253437738445, 66),
  (1202889036321620990296134494079846952404216422923750605507047, 66),
  (7560047625595947819392627283726711361273296630256477108501994, 67),
  (-4285970693151457255418342315045357407199066350632593899896712, 67),
  (-5003361868748230293692887222336390314786090450819216035110269, 68),
  (8965966311957728376981484572655177545054433542721057470726361, 68),
  (-1219924359483373093110396748985081720383992859961285213840740, 68),
  (-1104383021722648979552131128575075255513372249283096583736746, 68),
  (4250422311980592983740943309197245384991941251563471671065543, 69),
  (4384387799940474369553236949848427579687147486892033587998023, 70),
  (-5881091462634605628881794361152305108432139465417759716875076, 70),
  (8904723796221605490455387579189371137903330749397374037644960, 71),
  (3263270741332907875981844980104948375955551273115386408552080, 71),
  (-1430918765169202320188022211739750594608742928641485026836608, 71),
  (1075610653501062115165734990153347111902874668945095034791947, 72),
  (5361482229611801638107331379599434078296259332654994508124989, 73),
  (-1663800489433402369889818192962259823988673359967722467427927, 73),
  (2000715303810524954375796020597627467104635766752154321244151, 74),
  (-9421019139535078421314655362291088223782497046057523323473331, 76)]

/-- `db33` (wavelets_coeffs.template.h L1182-1248). -/
def db33 : List Lit := [
  (8186358314175091939858945975190102731733968885547217619434602, 66),
  (1791016153702791479424389068736094134247294413108336017758506, 64),
  (1822709435164084208084617771787691709255513374281497713580568, 63),
  (1139594337458160925830840619716397130445853638888472948832932, 62),
  (4861466653171619508385707681587366397164931431125053574327899, 62),
  (1481863131800528081784673514426737436792606299953305691300616, 61),
  (3267181301177075783930752787756046348844272437670999719562429, 61),
  (5093761725149396552227892926384090200953139820961482931291482, 61),
  (5112547705832674655425831875568453973369927971748064975152374, 61),
  (2095823507130554216526494469993023406452629154801126958766008, 61),
  (-2042026223985421049629055102642279430174095014493415546881477, 61),
  (-3159974107665602561905181464284910961862968513875028980451424, 61),
  (-1927833943695275915600583425408664108893845271616240406358226, 62),
  (2454206121192791114179964351253140999836791489738418857473689, 61),
  (9985155868033815698139640215477639365289384281516885362929979, 62),
  (-1714280990518593279308738113273443832545615219650436927029674, 61),
  (-1108441331167107910806084983056783194189909198734302929909672, 61),
  (1219678564037346149389134584371009777591763921148126952722200, 61),
  (9478808805061595889263191779090571160237408179346345390888721, 62),
  (-9114696835133148913093153757138373418923462847746880902676089, 62),
  (-7030248505405615921453280814171665167171986608963193275084895, 62),
  (7019114394099653254998935842432841393915841096633514680190145, 62),
  (4573456189389667743139040427641638967843459421665709740086516, 62),
  (-5347125133582228919431110824663168583260050383336359554980188, 62),
  (-2524858297747649929258392207837724793937727346177294684700378, 62),
  (3868706076024496481748675031852528047303323816250150793091832, 62),
  (1070326582001954942654534968137727769698168853186071888736311, 62),
  (-2572876175473297336123211392278301875687760837710204579628265, 62),
  (-2167758617353607324783298657172830203896433848418061622436727, 63),
  (1531695411585766548347442266431874060229304787191589430967538, 62),
  (-1594288782414604768637856446111392724059836934455189837500244, 63),
  (-7953540387057939240459305406538116220678495240302592677582773, 63),
  (2389062408165908575935815973439728988151836094753689966108405, 63),
  (3480800953405711999411461002429227385937942254778524257436278, 63),
  (-1860718214455795912074482150710567824317228203897000129729967, 63),
  (-1204309257604658876916644980097327372892008586047095719636829, 63),
  (1074380696351291355073899234941719080473877020595209197706651, 63),
  (2727305847336937211749282358350196461733595290569540045817329, 64),
  (-4908329007590351474487792254066540683724948757382104652497458, 64),
  (4393166251766185755059005296958129844094063524324718175254673, 66),
  (1780431898251245351831728023200069586928513661382622116969992, 64),
  (-4160438516273709306234368807933932360567787692918883118883736, 65),
  (-4929564423417301834310231482621574127409950921583062559483686, 65),
  (2423335398816890365621188379922041046073808819182024026589770, 65),
  (9070805757828453800203677464921508178468256685438211818575040, 66),
  (-8866121366757736169176034432364298134186929098274651022820760, 66),
  (-3607516102879771631230351118595069330196155459105589342866625, 67),
  (2288371276141527305481395545993763010565968667577768164201792, 66),
  (-4426923407952870147984002129341809185622768353983550670755106, 67),
  (-3985791291985944076942626511739220753169387460984290019185514, 67),
  (1822443332571053437467128998002798233969112236553215291639303, 67),
  (3377972703730854377516206663481869099376154259897212784144779, 68),
  (-3987838198518880722819502850814936369197384392561970319349663, 68),
  (3672863576838181340505563759379169099717712645283448779390320, 69),
  (5111211857347453839549366593998758891130921028374576213256027, 69),
  (-1671392677251932495173219614104411841891545601521784559793012, 69),
  (-2496402105246193648073519269370197331176405371538404298745013, 70),
  (2426833102305682309891302883361232297664099485514601790344279, 70),
  (-3049574453945863430361296931455141500128170151643206937547928, 71),
  (-1420236859889936792437077844940412749343225644487770840543290, 71),
  (5509414720765524548752673631197714447818740985929081064907524, 72),
  (-3343481218953278765982532722689984725170758193566174566492199, 73),
  (-2152488386833302618520603545685994753329478275805993737095214, 73),
  (6214740247174398315576214699577230693021307854673557214652751, 74),
  (-7196510545363322414033654470779070592316600780697558361083151, 75),
  (3289373678416306368625564108782095644036415401902518812978798, 76)]

/-- `db34` (wavelets_coeffs.template.h L1250-1318). -/
def db34 : List Lit := [
  (5770510632730285627466067796809329117324708919047900817738025, 66),
  (1299476200679530037833484815390569400369432658207722720405084, 64),
  (1364061390059049998200014449396877439591680435610837369411339, 63),
  (8819889403884978803182764563095879335330977939541630862804757, 63),
  (3904884135178594138905026219591569204043816577941517019631916, 62),
  (1241524821113768081954449898210969172708199672428635378051285, 61),
  (2877650592337145629334256618087718872558560120999651277991839, 61),
  (4784787462793710621468610706120519466268010329031345843336104, 61),
  (5305550996564631773133260223990794445605699030503652382795600, 61),
  (2903663295072749510455945186199530115755664977934564128822650, 61),
  (-1282468421744371672912377747048558427612774932943748628650824, 61),
  (-3315253015083869417715548463087537345035828886426345397256876, 61),
  (-1038919155156404718287260506925867970596448618647006698388596, 61),
  (2169072201874275950610018667099322465619408030256534197819784, 61),
  (1666017504122074437311574334509261366682993700573488534577890, 61),
  (-1273373582238011562843862636988693890108793629966541695807247, 61),
  (-1609249271778668063014799490429649196614628857267382976958607, 61),
  (7799184693794810738265349531832015087096882277333968473726399, 62),
  (1341259602711361284802399913977387999358280900708582462625539, 61),
  (-5448296806413904636632671383140642554265865948686157271017286, 62),
  (-1029475969928140852342073823689090498245496056845473569066667, 61),
  (4357609464963129726428486610925800727137724136370669421246609, 62),
  (7318523543679560555546221335452045680757998947493883124934567, 62),
  (-3701283841786244960356402125554190040750079009127461655784927, 62),
  (-4743855964527776247220681410983851377889756018716427358008296, 62),
  (3073974657395934459931226513844134346305562928466993208164603, 62),
  (2722835075635419610095839895805858855202745897718117731496534, 62),
  (-2367173792282636485046786438094940427456079528043555566867110, 62),
  (-1314398001665716086105827506126287041342680578404007359439612, 62),
  (1640937419986519252112261495537409592363156309874473310057471, 62),
  (4713649260999809905918876125437488856235874027077755004539205, 63),
  (-1004550670836151917439146861146431000364858401181337134891421, 62),
  (-6194748845153872839014356621835501857322345445234809347431098, 64),
  (5334950768759936032170270195983921511565539100791906952901398, 63),
  (-7692127975067836975989490900561029844887285335804349474993607, 64),
  (-2399453943537055863933124827688081952701780599883067560501870, 63),
  (8589959874363661955444898475746536583497522107459291718900058, 64),
  (8751999064078688732610570055224339733760304773327228476255647, 64),
  (-5527355762144197975516415296735124460550632283763688359649888, 64),
  (-2326732140233531635428863212833942245597361085708567528230733, 64),
  (2650772397558057819755811309071002543822145660933016957735937, 64),
  (2660050018453441903046828468025589086403126180798464347801678, 65),
  (-9914697770780134603580350758869378471802751837608461971022567, 65),
  (1353117227249649581251887376414486225127346352042209141315562, 65),
  (2844951419697807376503080001943765930601242225183893658540032, 65),
  (-1057657494257950623848316304755218120233253479317574337409622, 65),
  (-5710826510998303938275050074333400305512451419983646591762318, 66),
  (4169871758547028398316761659984928804362023643629741358799744, 66),
  (4979718101421307748081857636471761057429219265531618602960147, 67),
  (-1116306534817008428597995070751765080383261658112656948526954, 66),
  (1448195708333185127061180618150009526758658641231104901703561, 67),
  (2025990666667859216690536885693725545344933235432307649205497, 67),
  (-7526701740412589411177481797841044281662555785969415398369019, 68),
  (-1990346501531736915866180448337614967570744211158241514589121, 68),
  (1740423332936068076497051274445147160190783847854409836489662, 68),
  (-8665744261368722215864741166245385888818567571145958531936939, 70),
  (-2316501946995482751582294240136010067415084499025753117941001, 69),
  (6446378210323402313101214894500231181606520211579581132442548, 70),
  (1300410318609415248880403259300467720631189120978928377152233, 70),
  (-9904774537632409015479530333979124540183199174591377762845227, 71),
  (1004208735461769864836516428998306778031143650101842361622330, 71),
  (6080125354000167254059025929915591291115751734288584563131636, 72),
  (-2107879108915301546285370395443778864676275235126044599683271, 72),
  (9799451158211597727901178520526388692140586041163624252991805, 74),
  (8579194051799733179793112298652600511486581216528683482143106, 74),
  (-2317083703906408481078257081903089523234020423092175261925515, 74),
  (2587338381935699555813538163144986688834142571207152879144731, 75),
  (-1148944754480590128244815794312606245147888158018823490936280, 76)]

/-- `db35` (wavelets_coeffs.template.h L1320-1390). -/
def db35 : List Lit := [
  (4067934061148559026665247110206084571051201477121972612218005, 66),
  (9421469475576740631603027533116630224451049736050903361458759, 65),
  (1019122680375098109319314672751485080202557607467199213778085, 63),
  (6807292884319132011971333979015625113494050642797397817625326, 63),
  (3123628851149071453063391210769353068187088999495893257051179, 62),
  (1034044558614783789938787754929279183985553322796063517049140, 61),
  (2513073789944933128513251971488905042866779761014740192816902, 61),
  (4435927392240354378183910489448494594782039032807956294826105, 61),
  (5370084275091661028670690231716974547580034932361053607723887, 61),
  (3603456405180473278744458573988718422538114217890792270621563, 61),
  (-4388388187393404111343479394097224312100349011932028865098625, 62),
  (-3238228649121161212147302807993176715625480327235512530593160, 61),
  (-1817869767667278325788350264528191676841493369460849123538616, 61),
  (1660413574907809195438433327470947940538097914525298064477785, 61),
  (2172992893210892977675493456199559114036326358517672106972956, 61),
  (-6526287131067753892154895911331108284007380738865652420304233, 62),
  (-1919195892985939528760786800798636198516495957924798820500876, 61),
  (1930954466601835091947734585938109944647435243484967057775110, 62),
  (1552924803962371144206753760712566993987319378965231186477630, 61),
  (-4752680834111350445288110998030979143710864689041902167119118, 63),
  (-1205855226433935545076589480704957722635324456812322150437989, 61),
  (4734229172641948763293980314992213293971770695480616789828384, 63),
  (8991354757072954417865374195261962983644048998218233900481856, 62),
  (-9318558949903924837875002823617504227246562152671894579504378, 63),
  (-6335603744044346612098887534020545705731671718057964802006671, 62),
  (1322854958503655524455929847605110719648746890497356808289302, 62),
  (4125469306470509212749750814299126656151504805845417994651417, 62),
  (-1436683978422007182104025173214012797788904894291716373493525, 62),
  (-2416949780166026740294880681731084091264533168816746227537030, 62),
  (1276645671565674419403918018742432714973656598227939824940035, 62),
  (1228943600811871086161967625814297050611100200023898377949151, 62),
  (-9577797899235709998147309703713518608283233882793489733491642, 63),
  (-5085991649233429881797636583578921194675393807761154549733547, 63),
  (6137754586740521089596801883631921221145712545042519987641234, 63),
  (1428088794070762107355585870669842132609159040625895090070111, 63),
  (-3357644380922383229567732565298665639037348585961127075507937, 63),
  (7615969435172736546769649923895317451534703066016116257300160, 66),
  (1549637469702362975561719246539787717204438637997824935787688, 63),
  (-3346692164250854961608526121524596908041109918361306282201310, 64),
  (-5864810318991817532175809224131456738367101035694188223408841, 64),
  (2648328819961289039302810122699710966048565368047575218693134, 64),
  (1700012283661249043584690194716767771204207742625746308522935, 64),
  (-1365883072261161602559926714744746422567509177443594045709653, 64),
  (-2976995962848509743944225866488519668585242655980656646544319, 65),
  (5304143122913310222538317980686374696005605533475685587486683, 65),
  (-2437001526827789860990429478540556752694389693432668831073769, 66),
  (-1572442077270281693663288966405861215692805972737981986121447, 65),
  (4308047861716731191350493437937513220737450410132878032163179, 66),
  (3353345862871309889390877168046133657377105681618708355266688, 66),
  (-1895929617693153288493891051875444439753318548105998166574535, 66),
  (-3903931733287306166657519468494511920760767388397825775326745, 67),
  (5302368616904760917074352633915743250769600635829229600812520, 67),
  (-3700308378205124537986402644918879149894035910106489082512364, 68),
  (-9990396944534900755781728477561240762191443422318249128866740, 68),
  (3008188650719066928230268918661718274504955045022550217051301, 68),
  (1084902733789934825266560240100449884702749303326571747323086, 68),
  (-7458116552893037631192407611262788593505988638365840409367117, 69),
  (5897951310384361575470355861162022501172491937837712969865619, 71),
  (1030823345485433383811700481488557422005210168069163779730908, 69),
  (-2433545573751672936168877250405940817227367937230289801251648, 70),
  (-6407938256501889018430608323235974406219193176918284664973727, 71),
  (4000536627253744510742788201354093006471710416671002244302586, 71),
  (-3125639357108557540598098228678150768528121565391376265627294, 72),
  (-2567065476155081449204643852428401530283519685638256074752850, 72),
  (8015088533687900921948605418789324826115616416343391081288979, 73),
  (-2597954328893848084315198205094389145706680129208998638802995, 74),
  (-3397720856796267431956783825659069596940335130100871912329556, 74),
  (8624037434720089202680337663692777682810714650060805832406135, 75),
  (-9298012529324185420921555664719863501848315099116725184370339, 76),
  (4014628712333488654318569164614220308046021091178184654250982, 77)]

/-- `db36` (wavelets_coeffs.template.h L1392-1464). -/
def db36 : List Lit := [
  (2867925182755946334630479473029238615535511775894262711054705, 66),
  (6826028678546358691748629102209605362240344266505035981791715, 65),
  (7602151099668488285869792677106082100141275054892389379198545, 64),
  (5240297377409884366201603524392995696042174937194435235003941, 63),
  (2489056564482796484885927333959115579403023347044729739255255, 62),
  (8565209259526409083864716995521111486437594750377856524772704, 62),
  (2177569530979008149637945915719999746248969705650625533415876, 61),
  (4064336977082553467407793990250384445903151630768558142125382, 61),
  (5322668952607286914777444748641462027213554723153906901129337, 61),
  (4178753356009697863620634559374236455222275302996931178265919, 61),
  (4397519752934862993862182898358763783110745559238982179690132, 62),
  (-2944210395891145711100715969898758940722458887377844633443675, 61),
  (-2468070369781255270524798278622698446566520718230313889086016, 61),
  (9811420416311477050518401371401568038943437322299913514049728, 62),
  (2465372776089742110529709111809595434656418762898152706621356, 61),
  (7278515095792229009687682299460382878643139026668958884429641, 63),
  (-1993372056086496198603363400094784142714162256792182570541036, 61),
  (-4586140074639271639145126228774831743002971373998329604574394, 62),
  (1541062366276428841776316300420654875883842819413623395358262, 61),
  (5027618007353842862036816972809884096761706036019748316890913, 62),
  (-1188037543101356316801816931383547446073152951044444224449501, 61),
  (-3988085357551317584091699967924044034100374257075864260934102, 62),
  (9115678225801654406336059281306715151058903055370522031843771, 62),
  (2503872144956848989919484296709846860569180993040383621980546, 62),
  (-6820901663681751124880436344265538690580358108714540763125119, 62),
  (-1131910031681742794381808082173695022123056280821611354577883, 62),
  (4851308354780908538616267662315735632292989749013261207046367, 62),
  (1424972661765391603147802607378542396323429657660009755652404, 63),
  (-3198072067763969654470293513742344601172739688274251641873778, 62),
  (3984040198717004857397179486790082321314291366656151213429068, 63),
  (1906359478062535932877576164368198274858108513696832728889209, 62),
  (-5657813245058818380424016973516714570499161434975761798379020, 63),
  (-9990263473281372348001743806489172665465685056975652497503772, 63),
  (5022989106665829004699819220796538830393945994687289792465541, 63),
  (4413484835350575251918616780287775585471012556848037301025999, 63),
  (-3484541445404883311209541395428535732697661971818727286003028, 63),
  (-1503074066296643749549363655363411879858070202740814054964603, 63),
  (1990793771851737270404293245701878186600899439513475823305914, 63),
  (2776812795712026068152384207605140383490242756921936501940389, 64),
  (-9463403823261101964604918059447913047725482130063492242779878, 64),
  (8614565758992702032613879159402330909634737204578606399403107, 65),
  (3693507284967510502620040341882236687749563414433432842567511, 64),
  (-1155118895843527096848376999413102395191976350936666573818799, 64),
  (-1131899468084665671727391922924411467938450743565106978099456, 64),
  (6694741196930590257104231749283786251555566773398199990337698, 65),
  (2375106683660860777161950832380341362257503761490580896617678, 65),
  (-2731390824654337912922346414722045404779935825834384250023192, 65),
  (-1183471059985615942783182762352360917304348034947412986608322, 66),
  (8372218198160788432628056043217491552198857358432112275253310, 66),
  (-1586145782434577495502614631566211839722879492827911790709498, 66),
  (-1870811602859180713762972281154953528056257451900381097476968, 66),
  (8311421279707778528163597405935375886855029592150424544500718, 67),
  (2548423522556577831218519052844387478819866531902854523544709, 67),
  (-2455377658434232699135878286794578515387138194247693201846263, 67),
  (2753249073339512254085076456700241929492720457889076058451072, 69),
  (4799043465450992009934526867650497683545716858606119786327559, 68),
  (-1156093688817008406756913949175208452083765368825442482226093, 68),
  (-5612784343327791397474114357094368557982413895802980814813369, 69),
  (3138841695782424018351567952158415003571380699236147752239001, 69),
  (1090815553713751810964713058800448676068475673611349566405716, 70),
  (-4512545778563249634425200856088490195004077806062978067796020, 70),
  (8962418203859611987065968320295929679774693465791367610044773, 71),
  (3037429098112535221800013609576297196061786927734556635696416, 71),
  (-1599716689261357143200396922409448515398648489795044468046420, 71),
  (8876846287217374213524399682895564055949886050748321818411161, 73),
  (1070969357114017002424433471621197579059927261727846375968378, 72),
  (-3029285026974877268896134589769473854669758797446795757329862, 73),
  (5542263182639804235231685861028995158694397223907295269180336, 75),
  (1338071386299105896025578761458472955294763310766371178363783, 74),
  (-3204628543401749860439316638848579711789176444320134355253750, 75),
  (3339971984818693213132578777712503670014459411167839211495237, 76),
  (-1403274175373190617489823209168013922564353495443487431242610, 77)]

/-- `db37` (wavelets_coeffs.template.h L1466-1540). -/
def db37 : List Lit := [
  (2022060862498392121815038335333633351464174415618614893795880, 66),
  (4942343750628132004714286117434454499485737947791397867195910, 65),
  (5662418377066724013768394373249439163518654840493603575144737, 64),
  (4024140368257286770702140124893772447952256842478891548092703, 63),
  (1976228615387959153244055502205017461538589475705618414896893, 62),
  (7058482597718160832030361890793007659963483925312132741868671, 62),
  (1873263318620649448028843491747601576761901656888288838192023, 61),
  (3684409724003061409445838616964941132670287724754729425204047, 61),
  (5181670408556228873104519667534437205387109579265718071174178, 61),
  (4622075536616057145505448401528172070050768534504278694229363, 61),
  (1308789632330201726057701201017649601034381070893275586898075, 61),
  (-2461804297610834132869018581145720710365433914584680691693717, 61),
  (-2943759152626617722808219575932673733674290772235644691367427, 61),
  (1967150045235938977077768648740052380288156507222647187301894, 62),
  (2515232543602686933435224095078166291442923992611593827552710, 61),
  (8180602838721862339029076982652411696000045533716726027662147, 62),
  (-1819622917786080007408824256525225216444443143868752611284260, 61),
  (-1084517138233017845554078812341876568514835176341639783558543, 61),
  (1299296469598537527842528895259188653120602318620944502979726, 61),
  (1017802968388141797470948228505865617480048287983176581607964, 61),
  (-9660754061668439030915405045955772715988585374771282291315496, 62),
  (-8233021190655740867404073660920379414988302492018783774702028, 62),
  (7504761994836017933579005072594245435071674452882148228583865, 62),
  (5956741087152995245435589042520108066877114768216272503684398, 62),
  (-5925681563265897095153806724965924334077555174281436189512239, 62),
  (-3825382947938424882011108885090442116802994193611884738133373, 62),
  (4580794415126833246633256156110381805848138158784734496981778, 62),
  (2097280059259754883313769469036393294461497749083921162354229, 62),
  (-3352358406410096994358662875913243067234786296009238949920582, 62),
  (-8833493890410232394064187990625563257107429109130726291528648, 63),
  (2261865154459947356571431658958802912061105608212828675323452, 62),
  (1690472383484423743663952859090705636512807161536954018400081, 63),
  (-1376398196289478433857985486097070339786225136728067000591187, 62),
  (1519305778833399218481261844599507408563295102235964076544334, 63),
  (7387757452855583640107787619408806919082115520707105052944171, 63),
  (-2248053187003824706127276829147166466869908326245810952521710, 63),
  (-3394523276408398601988475786247462646314228994098320665709345, 63),
  (1816871343801423525477184531347879515909226877688306010517914, 63),
  (1263934258117477182626760951047019242187910977671449470318766, 63),
  (-1111484865318630197259018233162929628309920117691177260742614, 63),
  (-3280788470880198419407186455190899535706232295554613820907245, 64),
  (5490532773373631230219769273898345809368332716288071475378651, 64),
  (1534439023195503211083338679106161291342621676983096723309776, 65),
  (-2208944032455493852493630802748509781675182699536797043565515, 64),
  (4336726125945695214852398433524024058216834313839357806404424, 65),
  (7055138782065465075838703109997365141906130284669094131032488, 65),
  (-3098662927619930052417611453170793938796310141219293329658062, 65),
  (-1639162496160583099236044020495877311072716199713679670940295, 65),
  (1354327718416781810683349121150634031343717637827354228989989, 65),
  (1849945003115590390789683032647334516600314304175482456338006, 66),
  (-4309941556597092389020622638271988877959028012481278949268461, 66),
  (4854731396996411681769911684430785681028852413859386141424939, 67),
  (1002121399297177629772998172241869405763288457224082581829033, 66),
  (-3494948603445727645895194867933547164628229076947330682199174, 67),
  (-1509885388671583553484927666148474078148724554849968758642331, 67),
  (1109031232216439389999036327867142640916239658806376290861690, 67),
  (5350657515461434290618742656970344024396382191417247602674540, 69),
  (-2252193836724805775389816424695618411834716065179297102428180, 68),
  (4224485706362419268050011630338101126995607958955688879525896, 69),
  (2793974465953982659829387370821677112004867350709951380622807, 69),
  (-1297205001469435139867686007585972538983682739297235604327668, 69),
  (-1031411129096974965677950646498153071722880698222864687038596, 70),
  (1946164894082315021308714557636277980079559327508927751052218, 70),
  (-3203398244123241367987902201268363088933939831689591684670080, 71),
  (-1398415715537641487959551682557483348661602836709278513081908, 71),
  (6334955440973913249611879065201632922100533284261000819747915, 72),
  (-2096363194234800541614775742755555713279549381264881030843258, 73),
  (-4421612409872105367333572734854401373201808896976552663098518, 73),
  (1138052830921439682522395208295427884729893377395129205716662, 73),
  (-4518889607463726394454509623712773172513778367070839294449849, 76),
  (-5243025691884205832260354503748325334301994904062750850180233, 75),
  (1189012387508252879928637969242590755033933791160383262132698, 75),
  (-1199280335852879554967035114674445327319437557227036460257649, 76),
  (4906615064935203694857690087429901193139905690549533773201453, 78)]

/-- `db38` (wavelets_coeffs.template.h L1542-1618). -/
def db38 : List Lit := [
  (1425776641674131672055420247567865803211784397464191115245081, 66),
  (3576251994264023012742569014888876217958307227940126418281357, 65),
  (4211702664727116432247014444906469155300573201130549739553848, 64),
  (3083088119253751774288740090262741910177322520624582862578292, 63),
  (1563724934757215617277490102724080070486270026632620664785632, 62),
  (5788994361285925649727664279317241952513246287766481213301801, 62),
  (1600719935641106973482800861166599685169395465055048951307626, 61),
  (3307757814110146511493637534404611754800768677041577030757306, 61),
  (4965911753117180976599171147718708939352414838951726087564419, 61),
  (4933560785171007975728485346997317064969513623594359091115804, 61),
  (2130505713555785138286743353458562451255624665951160445122307, 61),
  (-1828676677083358907975548507946239135218223185041410632924815, 61),
  (-3216756378089978628483471725406916361929841940528189059002548, 61),
  (-6226650604782432226643360160478765847565862101045597180310490, 62),
  (2321259638353531085028708104285994998671615563662858079262996, 61),
  (1499851196187170199586403453788927307298226028262603028635758, 61),
  (-1417956859730596216710053144522330276392591055375830654519080, 61),
  (-1599125651582443618288533214523534937804208844386102639177693, 61),
  (8563812155615105741612217814369165313487129645536001850276987, 62),
  (1414147340733826800884683119379170594092606174915755283496153, 61),
  (-5658645863072738145681787657843320646815509410635114234947902, 62),
  (-1147311707107443752394144019458942779715665489230169950201022, 61),
  (4309589543304764288137871223616030624246568683595408792078602, 62),
  (8720439826203975011910714164154456762073786124233088471855868, 62),
  (-3660510340287429567372071039506772372567938710943432838908247, 62),
  (-6176620870841315993604736705613246241897497782373337911398117, 62),
  (3198987753153780630818381136366859026137035450576631134176875, 62),
  (4005498110511594820952087086241114309038577379366732959648548, 62),
  (-2689149388089451438550851767715967313417890393287236700072071, 62),
  (-2311413402054931680856913553585621248925303865540203357180768, 62),
  (2090464525565524340215982365351342094670261491526831672682244, 62),
  (1129049727868596484270081487761544232851115891449843967151657, 62),
  (-1470188206539868213708986402816605045648481224662435114088245, 62),
  (-4131306656031089274123231103326745723188134548520938157995702, 63),
  (9214785032197180512031534870181734003522861645903894504302286, 63),
  (5625715748403532005741565594881148757066703437214522101740941, 64),
  (-5071314509218348093935061417505663002006821323958752649640329, 63),
  (7169821821064019257784165364894915621888541496773370435889585, 64),
  (2400697781890973183892306914082592143984140550210130139535193, 63),
  (-8448626665537775009068937851465856973251363010924003314643612, 64),
  (-9424614077227377964015942271780098283910230639908018778588910, 64),
  (5810759750532863662020321063678196633409555706981476723988312, 64),
  (2817639250380670746018048967535608190123523180612961062603672, 64),
  (-3031020460726611993600629020329784682496477106470427787747855, 64),
  (-4555682696668420274688683005987764360677217149927938344795290, 65),
  (1262043350166170705382346537131817701361522387904917335958705, 64),
  (-1155409103833717192628479047983460953381959342642374175822863, 65),
  (-4175141648540397797296325065775711309197411926289412468280801, 65),
  (1334176149921350382547503457286060922218070031330137601427324, 65),
  (1037359184045599795632258335010065103524959844966094870217687, 65),
  (-6456730428469619160379910439617575420986972394137121953806236, 66),
  (-1550844350118602575853380148525912999401292473185534395740371, 66),
  (2149960269939665207789548199790770596890252405076394885606038, 66),
  (-8487087586072593071869805266089426629606479876982221840833098, 68),
  (-5187733738874144426008474683378542368066310000602823096009187, 67),
  (1396377545508355481227961581059961184519872502493462010264633, 67),
  (8400351046895965526933587176781279507953080669259318722910523, 68),
  (-4884757937459286762082185411608763964041010392101914854918157, 68),
  (-5424274800287298511126684174854414928447521710664476410973981, 69),
  (1034704539274858480924046490952803937328239537222908159451039, 68),
  (-1436329487795135706854539856979275911183628476521636251660849, 69),
  (-1349197753983448821850381770889786301246741304307934955997111, 69),
  (5261132557357598494535766638772624572100332209198979659077082, 70),
  (6732336490189308685740626964182623159759767536724844030164551, 71),
  (-8278256522538134727330692938158991115335384611795874767521731, 71),
  (1101692934599454551150832622160224231280195362919498540913658, 71),
  (6291537317039508581580913620859140835852886308989584198166174, 72),
  (-2484789237563642857043361214502760723611468591833262675852242, 72),
  (2626496504065252070488282876470525379851429538389481576454618, 74),
  (1808661236274530582267084846343959377085922019067808145635263, 73),
  (-4249817819571463006966616371554206572863122562744916796556474, 74),
  (-4563397162127373109101691643047923747796563449194075621854491, 76),
  (2045099676788988907802272564402310095398641092819367167252952, 75),
  (-4405307042483461342449027139838301611006835285455050155842865, 76),
  (4304596839558790016251867477122791508849697688058169053134463, 77),
  (-1716152451088744188732404281737964277713026087224248235541071, 78)]

/-- `sym2` (wavelets_coeffs.template.h L1621-1623). -/
def sym2 : List Lit := [
  (48296291314469025, 17),
  (83651630373746899, 17),
  (22414386804185735, 17),
  (-12940952255092145, 17)]

/-- `sym3` (wavelets_coeffs.template.h L1625-1627). -/
def sym3 : List Lit := [
  (33267055295095688, 17),
  (80689150931333875, 17),
  (45987750211933132, 17),
  (-13501102001039084, 17),
  (-85441273882241486, 18),
  (35226291882100656, 18)]

/-- `sym4` (wavelets_coeffs.template.h L1629-1631). -/
def sym4 : List Lit := [
  (32223100604042702, 18),
  (-12603967262037833, 18),
  (-99219543576847216, 18),
  (29785779560527736, 17),
  (80373875180591614, 17),
  (49761866763201545, 17),
  (-2963552764599851, 17),
  (-75765714789273325, 18)]

/-- `sym5` (wavelets_coeffs.template.h L1633-1635). -/
def sym5 : List Lit := [
  (19538882735286728, 18),
  (-21101834024758855, 18),
  (-17532808990845047, 17),
  (16602105764522319, 18),
  (63397896345821192, 17),
  (72340769040242059, 17),
  (1993975339773936, 16),
  (-39134249302383094, 18),
  (29519490925774643, 18),
  (27333068345077982, 18)]

/-- `sym6` (wavelets_coeffs.template.h L1637-1639). -/
def sym6 : List Lit := [
  (-7800708325034148, 18),
  (17677118642428036, 19),
  (44724901770665779, 18),
  (-21060292512300564, 18),
  (-72637522786462516, 18),
  (3379294217276218, 16),
  (787641141030194, 15),
  (49105594192674662, 17),
  (-48311742585632998, 18),
  (-11799011114819057, 17),
  (34907120842174702, 19),
  (15404109327027373, 18)]

/-- `sym7` (wavelets_coeffs.template.h L1641-1643). -/
def sym7 : List Lit := [
  (10268176708511255, 18),
  (40102448715336634, 19),
  (-10780823770381774, 17),
  (-14004724044296152, 17),
  (28862963175151463, 17),
  (76776431700316405, 17),
  (5361019170917628, 16),
  (17441255086855827, 18),
  (-49552834937127255, 18),
  (67892693501372697, 18),
  (3051551316596357, 17),
  (-1263630340325193, 17),
  (-10473848886829163, 19),
  (26818145682578781, 19)]

/-- `sym8` (wavelets_coeffs.template.h L1645-1647). -/
def sym8 : List Lit := [
  (18899503327594609, 19),
  (-3029205147213668, 19),
  (-14952258337048231, 18),
  (38087520138906151, 19),
  (49137179673607506, 18),
  (-27219029917056003, 18),
  (-51945838107709037, 18),
  (3644418948353314, 16),
  (77718575170052351, 17),
  (48135965125837221, 17),
  (-61273359067658524, 18),
  (-14329423835080971, 17),
  (76074873249176054, 19),
  (31695087811492981, 18),
  (-54213233179114812, 20),
  (-33824159510061256, 19)]

/-- `sym9` (wavelets_coeffs.template.h L1649-1651). -/
def sym9 : List Lit := [
  (10694900329086053, 19),
  (-47315449868008311, 20),
  (-10264064027633142, 18),
  (88592674934004842, 19),
  (6207778930288603, 17),
  (-18233770779395985, 18),
  (-19155083129728512, 17),
  (35272488035271894, 18),
  (61733844914093583, 17),
  (717897082764412, 15),
  (238760914607303, 15),
  (-54568958430834071, 18),
  (58346274612580684, 20),
  (3022487885827568, 17),
  (-1152821020767923, 17),
  (-13271967781817119, 18),
  (61978088898558676, 20),
  (14009155259146807, 19)]

/-- `sym10` (wavelets_coeffs.template.h L1653-1655). -/
def sym10 : List Lit := [
  (-45932942100465878, 20),
  (57036083618494284, 21),
  (45931735853118284, 19),
  (-80435893201654491, 20),
  (-2035493981231129, 17),
  (57649120335819086, 19),
  (49994972077376687, 18),
  (-319900568824278, 16),
  (-35536740473817552, 18),
  (38382676106708546, 17),
  (7695100370211071, 16),
  (47169066693843925, 17),
  (-70880535783243853, 18),
  (-15949427888491757, 17),
  (11609893903711381, 18),
  (45927239231092203, 18),
  (-14653825813050513, 19),
  (-86412992770224222, 19),
  (95632670722894754, 21),
  (77015980911449011, 20)]

/-- `sym11` (wavelets_coeffs.template.h L1657-1659). -/
def sym11 : List Lit := [
  (48926361026192387, 20),
  (11053509764272153, 20),
  (-63896036664548919, 19),
  (-20034719001093887, 19),
  (43000190681552281, 18),
  (35266759564466552, 18),
  (-14460234370531561, 17),
  (-2046547944958006, 16),
  (23768990904924897, 17),
  (73034354908839572, 17),
  (57202297801008706, 17),
  (97198394458909473, 18),
  (-22832651022562687, 18),
  (69976799610734136, 18),
  (370374159788594, 16),
  (-24080841595864003, 18),
  (-98579348287897942, 19),
  (65124956747714497, 19),
  (58835273539699145, 20),
  (-17343662672978692, 19),
  (-38795655736158566, 21),
  (17172195069934854, 20)]

/-- `sym12` (wavelets_coeffs.template.h L1661-1663). -/
def sym12 : List Lit := [
  (-17906658697508691, 20),
  (-18158078862617515, 21),
  (23502976141834648, 19),
  (30764779631059454, 20),
  (-14589836449234145, 18),
  (-26043910313322326, 19),
  (57804179445505657, 18),
  (1530174062247884, 17),
  (-17037069723886492, 17),
  (-7833262231634322, 17),
  (46274103121927235, 17),
  (76347909778365719, 17),
  (39888597239022, 14),
  (-22162306170337816, 18),
  (-35848830736954392, 18),
  (49179318299660837, 18),
  (75537806116804775, 19),
  (-24220722675013445, 18),
  (-14089092443297553, 19),
  (7414965517654251, 18),
  (18021409008538188, 20),
  (-13497557555715387, 19),
  (-11353928041541452, 21),
  (11196719424656033, 20)]

/-- `sym13` (wavelets_coeffs.template.h L1665-1667). -/
def sym13 : List Lit := [
  (70429866906944016, 21),
  (36905373423196241, 21),
  (-7213643851362283, 19),
  (41326119884196064, 20),
  (56748537601224395, 19),
  (-14924472742598532, 19),
  (-20749686325515677, 18),
  (17618296880653084, 18),
  (92926030899137119, 18),
  (88197576704205465, 19),
  (-14049009311363403, 17),
  (11023022302137217, 17),
  (64456438390118564, 17),
  (69573915056149638, 17),
  (19770481877117801, 17),
  (-12436246075153011, 17),
  (-59750627717943698, 18),
  (13862497435849205, 18),
  (-17211642726299048, 18),
  (-2021676813338983, 17),
  (52963597387250252, 19),
  (75262253899680996, 19),
  (-17094285853022211, 20),
  (-11360634389281183, 19),
  (-35738623648689009, 21),
  (68203252630753188, 21)]

/-- `sym14` (wavelets_coeffs.template.h L1669-1671). -/
def sym14 : List Lit := [
  (44618977991475265, 21),
  (19329016965523917, 21),
  (-60576018246643346, 20),
  (-73214213567023991, 21),
  (45326774719456481, 19),
  (10131419871842082, 19),
  (-19439314263626713, 18),
  (-23650488367403851, 19),
  (69827616361807551, 18),
  (25898587531046669, 18),
  (-15999741114652205, 17),
  (-58111823317717831, 18),
  (47533576263420663, 17),
  (75997624196109093, 17),
  (39320152196208885, 17),
  (-35318112114979733, 18),
  (-57634498351326995, 18),
  (37433088362853452, 18),
  (42805204990193782, 19),
  (-29196217764038187, 18),
  (-27537747912240711, 19),
  (10037693717672269, 18),
  (36647657366011829, 20),
  (-2579441725933078, 18),
  (-62865424814776362, 21),
  (39843567297594335, 20),
  (11210865808890361, 21),
  (-25879090265397886, 21)]

/-- `sym15` (wavelets_coeffs.template.h L1673-1675). -/
def sym15 : List Lit := [
  (28660708525318081, 21),
  (21717890150778919, 21),
  (-40216853760293483, 20),
  (-10815440168545525, 20),
  (3481028737064895, 18),
  (15261382781819983, 19),
  (-17171252781638731, 18),
  (-87447888864779517, 19),
  (67969829044879179, 18),
  (68393310060480245, 18),
  (-13405629845625389, 17),
  (-1966263587662373, 16),
  (2439627054321663, 16),
  (72184302963618119, 17),
  (57864041521503451, 17),
  (11153369514261872, 17),
  (-4108266663538248, 17),
  (40735479696810677, 18),
  (21937642719753955, 18),
  (-38876716876833493, 18),
  (-19405011430934468, 18),
  (10079977087905669, 18),
  (3423450736351241, 18),
  (-35901654473726417, 19),
  (-26731644647180568, 20),
  (10705672194623959, 19),
  (55122547855586653, 21),
  (-16066186637495343, 20),
  (-73596667989194696, 22),
  (97124197379633478, 22)]

/-- `sym16` (wavelets_coeffs.template.h L1677-1679). -/
def sym16 : List Lit := [
  (-10797982104319795, 21),
  (-53964831793152419, 22),
  (16545679579108483, 20),
  (3656592483348223, 20),
  (-13387206066921965, 19),
  (-22211647621176323, 20),
  (69377611308027096, 19),
  (1359844742484172, 18),
  (-24952758046290123, 18),
  (-35102750683740089, 19),
  (78037852903419913, 18),
  (3072113906330156, 17),
  (-15959219218520598, 17),
  (-54040601387606135, 18),
  (47534280601152273, 17),
  (75652498787569711, 17),
  (39712293362064416, 17),
  (-34574228416972504, 18),
  (-66983049070217779, 18),
  (32333091610663785, 18),
  (48692744049046071, 19),
  (-31051202843553064, 18),
  (-31265171722710075, 19),
  (12666731659857348, 18),
  (71821197883178923, 20),
  (-38809122526038786, 19),
  (-1084456223089688, 19),
  (85235471080470952, 20),
  (28078582128442894, 21),
  (-10943147929529757, 20),
  (-31135564076219692, 22),
  (62300067012207606, 22)]

/-- `sym17` (wavelets_coeffs.template.h L1681-1683). -/
def sym17 : List Lit := [
  (37912531943321266, 22),
  (-24527163425832999, 22),
  (-76071244056051285, 21),
  (25207933140828779, 21),
  (7198270642148971, 19),
  (58400428694052584, 21),
  (-39323252797979023, 19),
  (-19054076898526659, 19),
  (12396988366648726, 18),
  (99529825235095976, 19),
  (-1803889724191924, 17),
  (-72616347509287674, 19),
  (16158808725919346, 18),
  (-86070874720733381, 18),
  (-15507600534974825, 17),
  (18053958458111286, 17),
  (68148899534492502, 17),
  (65071662920454565, 17),
  (14239835041467819, 17),
  (-11856693261143636, 17),
  (172711782105185, 16),
  (10475461484223211, 17),
  (17903952214341119, 18),
  (-33291383492359328, 18),
  (-48192128031761478, 19),
  (10482366933031529, 18),
  (8567700701915741, 19),
  (-27416759756816018, 19),
  (-13864230268045499, 20),
  (4759963802638669, 19),
  (-13506383399901165, 21),
  (-62937025975541919, 21),
  (27801266938414138, 22),
  (4297343327345983, 21)]

/-- `sym18` (wavelets_coeffs.template.h L1685-1687). -/
def sym18 : List Lit := [
  (-15131530692371587, 22),
  (78472980558317646, 23),
  (29557437620930811, 21),
  (-9858816030140058, 21),
  (-26583011024241041, 20),
  (47416145183736671, 21),
  (14280863270832796, 19),
  (-18877623940755607, 20),
  (-52397896830266083, 19),
  (10877847895956929, 19),
  (15012356344250213, 18),
  (-32607442000749834, 19),
  (-31712684731814537, 18),
  (62779445543116943, 19),
  (28529597039037808, 18),
  (-73799207290607169, 18),
  (-32480573290138676, 18),
  (40148386057061813, 17),
  (75362914010179283, 17),
  (47396905989393956, 17),
  (-52029158983952786, 18),
  (-15993814866932407, 17),
  (33995667103947358, 18),
  (84219929970386548, 18),
  (-50770851607570529, 19),
  (-30325091089369604, 18),
  (16429863972782159, 19),
  (95021643909623654, 19),
  (-41152110923597756, 20),
  (-23138718145060992, 19),
  (70212734590362685, 21),
  (39616840638254753, 20),
  (-14020992577726755, 21),
  (-45246757874949856, 21),
  (1354915761832114, 21),
  (26126125564836423, 22)]

/-- `sym19` (wavelets_coeffs.template.h L1689-1691). -/
def sym19 : List Lit := [
  (17509367995348687, 22),
  (20623170632395688, 22),
  (-28151138661550245, 21),
  (-16821387029373716, 21),
  (27621877685734072, 20),
  (12930767650701415, 20),
  (-17049602611649971, 19),
  (-61792232779831076, 20),
  (82622369555282547, 19),
  (43193518748949689, 19),
  (-27709896931311252, 18),
  (-16908234861345205, 18),
  (84072676279245043, 18),
  (93630843415897141, 18),
  (-11624173010739675, 17),
  (-17659686625203097, 17),
  (25826616923728363, 17),
  (71955552571639425, 17),
  (57814494533860505, 17),
  (10902582508127781, 17),
  (-67525058040294086, 18),
  (89545911730436242, 19),
  (70155738571741596, 19),
  (-46635983534938946, 18),
  (-22651993378245951, 18),
  (15797439295674631, 18),
  (79684383206133063, 19),
  (-5122205002583014, 18),
  (-11607032572062486, 19),
  (21214250281823303, 19),
  (15915804768084938, 20),
  (-63576451500433403, 20),
  (-46120396002105868, 21),
  (1155392333357879, 19),
  (88733121737292863, 22),
  (-11880518269823984, 21),
  (-64636513033459633, 23),
  (54877327682158382, 23)]

/-- `sym20` (wavelets_coeffs.template.h L1693-1695). -/
def sym20 : List Lit := [
  (-63291290447763946, 23),
  (-32567026420174407, 23),
  (122872527779612, 19),
  (45254222091516362, 22),
  (-11739133516291466, 20),
  (-26615550335516086, 21),
  (74761085978205719, 20),
  (12544091723067259, 20),
  (-34716478028440734, 19),
  (-6111263857992088, 19),
  (12157040948785737, 18),
  (19385970672402002, 19),
  (-35373336756604236, 18),
  (-68437019650692274, 19),
  (88919668028199561, 18),
  (36250951653933078, 18),
  (-16057829841525254, 17),
  (-51088342921067398, 18),
  (47199147510148703, 17),
  (75116272842273002, 17),
  (40583144434845059, 17),
  (-29819368880333728, 18),
  (-78994344928398158, 18),
  (25579349509413946, 18),
  (81232283560096815, 19),
  (-31629437144957966, 18),
  (-33138573836233591, 19),
  (17004049023390339, 18),
  (14230873594621453, 19),
  (-66065857990888609, 19),
  (-3052628317957281, 19),
  (20889947081901982, 19),
  (72159911880740349, 21),
  (-49473109156726548, 20),
  (-1928412300645204, 20),
  (7992967835772481, 20),
  (30256660627369661, 22),
  (-7919361411976999, 21),
  (-19015675890554106, 23),
  (3695537474835221, 22)]

/-- `coif1` (wavelets_coeffs.template.h L1700-1707). -/
def coif1 : List Lit := [
  (-5142972847076845595317549230122688830344559947132656813651045, 62),
  (2389297284707684559531754923012268883034455994713265681365104, 61),
  (6028594569415369119063509846024537766068911989426531362730209, 61),
  (2721405430584630880936490153975462233931088010573468637269790, 61),
  (-5142972847076845595317549230122688830344559947132656813651045, 62),
  (-1107027152923154404682450769877311169655440052867343186348954, 62)]

/-- `coif2` (wavelets_coeffs.template.h L1710-1723). -/
def coif2 : List Lit := [
  (1158759673871686817889714882853120395708315073355502818875931, 62),
  (-2932013798346856448679594524397843054053420947418409889774786, 62),
  (-4763959031100813225872995081511549408622753909592460525840745, 62),
  (2730210465347666137982239328923516270034828327990699588033501, 61),
  (5746823938568638472459483149751499367740786490481481391460366, 61),
  (2948671936956191896750637208703777973914107635455611537640778, 61),
  (-5408560709171142997443672832006888537570221990444706777525838, 62),
  (-4202648046077160694657530752545884878978719268926222513485613, 62),
  (1674441016327950635146257083249391698866289538037299820224006, 62),
  (3967883612962012109043447090269950094081810916481648252817197, 63),
  (-1289203356140659543141355500990678257894936161704492503370186, 63),
  (-5095053991076441489598480835620951586540050976664367876412655, 64)]

/-- `coif3` (wavelets_coeffs.template.h L1725-1744). -/
def coif3 : List Lit := [
  (-2682418670922068664584689955153722375535836177157637134187840, 63),
  (5503126707831385107969640263617469178794666057252906037981936, 63),
  (1658356047917034608134280439996549525220639437145367606178002, 62),
  (-4650776447872697640390293095170192691113917841041002855534619, 62),
  (-4322076356021191118175840907244577856782537221435748296465882, 62),
  (2865033352736474630249006862976158896891076238443844211133873, 61),
  (5612852568703300445990941995240077241406247774064453800050914, 61),
  (3029835717728241602862575774374668529867757043461413348549577, 61),
  (-5077014075488886159516471867138370972545857441670871832472707, 62),
  (-5819625076158553022607041679522801089624825903982541419721721, 62),
  (2443409432116695639462954438418928805487699080947974989338820, 62),
  (1122924096203786563399489540091488781245346096838814728167341, 62),
  (-6369601011048822977293753932627342482077585617391852852955559, 63),
  (-1820458915566242322836631665832145136570132777862391313328351, 63),
  (7902051009575939937150950543290226440287715441826917281929124, 64),
  (3296651737931830308416338897758022998655744276957481989605186, 64),
  (-5019277455327664998007173088097694083956570594580641192332170, 65),
  (-2446573425530813115445387662881902303945941576472342106918209, 65)]

/-- `coif4` (wavelets_coeffs.template.h L1747-1772). -/
def coif4 : List Lit := [
  (6309612114309468490753696608619526520153127603444406835368201, 64),
  (-1152225143769973488683007937016166047881572156705066038094891, 63),
  (-5194525163470323267558201363327294331811309729430512113592118, 63),
  (1136246148326482276463392678363118465908960082105224676102131, 62),
  (1886723856956305960822813160712701905823879297781452350370094, 62),
  (-5746424190192718517290527411385172124443396690932404284859269, 62),
  (-3965265296244913762718094206756579981738035770770645437919302, 62),
  (2936674050161006858761278962798582650835466243678172528509866, 61),
  (5531264550395492870333469741987846570947502710783248169642137, 61),
  (3071573096678856987248881030393884808414165269795297009902001, 61),
  (-4711273752389572084912399351781012121935994396763702238263689, 62),
  (-6803811467802056988332974920928626798429778679560269769187728, 62),
  (2781363695846951303169163645831936314699164412528991864702607, 62),
  (1773583142270308388403079552822372238681544967313003044695583, 62),
  (-1075631615508724933047071603601897536695959225169888787867102, 62),
  (-4001010844950535391911552472397083276670126595827549403173754, 63),
  (2652664913530499860820143301690017184933302935238430721089152, 63),
  (8955939276952843603555618778866181384528643960440369133096025, 64),
  (-4165001950941708741516836418852536615951250588002878691463468, 64),
  (-1838296167136253805617482342622910940008368723403836355183423, 64),
  (4408022661597206973006038672236031501663774161685451815597956, 65),
  (2208284691230832960893331999804142845136324572860276715790883, 65),
  (-2304919162676504406778986897925054839632903355820414483306851, 66),
  (-1262179179994622253884862172782890488140153502131112374520603, 66)]

/-- `coif5` (wavelets_coeffs.template.h L1776-1807). -/
def coif5 : List Lit := [
  (-1499645228345950331670593167919531667975440598691604525531231, 64),
  (2535527523580334712936363872191554706055603482812691726895588, 64),
  (1540286725995222360335148244676269541414659303531250711822333, 63),
  (-2941078164035693185044038586065593320891475311414770624555173, 63),
  (-7164112349410053294382279572472252500899544810929605832362178, 63),
  (1655218330649288840540841623080651353621667424921282557975513, 62),
  (1991901719798432056056857854066125809443504706772520641876273, 62),
  (-6499837825472324963374262221660858232544804226063450042795603, 62),
  (-3680255347446873527191823500872992242220223547780834450868002, 62),
  (2980959014587191795511466861338063554509597132272839414668911, 61),
  (5475082713540367154128337935687830970431964302909253422329131, 61),
  (3097002590784203529311533316221254677074498876376965941549923, 61),
  (-4386731482823615640442730013366750193381707273908757638050452, 62),
  (-7464442013283971243472663968192859562973186442054433655531762, 62),
  (2919469277528073666095772398605275751022315529465178441510318, 62),
  (2310457227706684192610065243663928370022983285246219996141160, 62),
  (-1397129268638200558584119246355879336305763752871371182932059, 62),
  (-6476749751505861835547590642967453082384538848552165075614441, 63),
  (4781116799130657606400088024549264921093190305150784065791191, 63),
  (1719383484385504023022397097446276782318002683055773803854075, 63),
  (-1174947934413537690027670037110105795928147523549002426409332, 63),
  (-4508222400696236312231932151038336110220594834213702970043431, 64),
  (2134457975086291667348984871136041914777578046177470626552867, 64),
  (9924691139873533169989496559631669037970741600337089424730635, 65),
  (-2914684388622130824599478843558087403539428940986384077972155, 65),
  (-1504031798197685905639227292876711236513927746903476131955063, 65),
  (2616809660013118152124234488302931243021794024318439103773996, 66),
  (1457502921355163070577152619048168436286350537937563166257584, 66),
  (-1148199649902979726237655584441763456854312591680755421569962, 67),
  (-6791060677322355511541065559242475254516249773485524025251102, 68)]

/-- `coif6` (wavelets_coeffs.template.h L1810-1847). -/
def coif6 : List Lit := [
  (3590369176713147297619137585162985487882983106558813483919654, 65),
  (-5739587600308579302553116112640931312834124316491419262693257, 65),
  (-4416681189774217015420887950711066328841194295133755225305844, 64),
  (7718952365964601416123598337617069164684563206275891099236221, 64),
  (2502464949920583984721024494943552146200854870661622211002418, 63),
  (-4970540926794084916072709193212250530229884674851059194676904, 63),
  (-8649031599946572670088689962363342931064457587276457635862837, 63),
  (2096272704497140779792663941456374769474253019820508756967019, 62),
  (2035485665853858604541136567848434116598037957308057353920592, 62),
  (-7047945564795552885905434147081164203757922879137146339823510, 62),
  (-3448140611368923447131875491841937617457159299006945091335206, 62),
  (3010998878403483951866118786441379902683440623823004392113350, 61),
  (5433431541205752976643226361323847389491208513427704619816300, 61),
  (3114106686884303879320332890564758567306967030720816157048784, 61),
  (-4108920994584877203854246950993119698209208008049962179892675, 62),
  (-7938037857340304740867638342147592451705918503253249849143539, 62),
  (2959417996664270964779250587338231669479158250990737014414477, 62),
  (2749324945396978289421721884832761949259069726774638450310483, 62),
  (-1622820901345195945858655272139343256940218447777075044002063, 62),
  (-8944948800734973559175903045029991278019908264185511730556261, 63),
  (6781924902353432370456282863377674743820538634665380239602198, 63),
  (2727776322637165251200756406544564359327985321401403409245472, 63),
  (-2173603470504406274543289770274934991733554729244606459300157, 63),
  (-8184301467772110627838702680469158860544118224504527036324346, 64),
  (5443695006423825218320707989235387077885356717678678221237514, 64),
  (2299669354496271337796680394777537358902688275513954507765924, 64),
  (-1093025858275705388257100771765109469841731265349469854748449, 64),
  (-5323102894235956524250869703703947941287269765076967124254140, 65),
  (1749138884456354646795465632327170008020712055425505484223307, 65),
  (9291277996211799255766657547295162218792966588358292566578482, 66),
  (-2067852860108562040355056354764683583070734740977224663511355, 66),
  (-1173528057754959701015486666538811237336231287996985858558749, 66),
  (1595231380068613024221709499993144713297922814623646799204434, 67),
  (9548236102970597211555688470325396069418862428946106509526618, 68),
  (-6001316648399794543233636397364817876191104394511939069108879, 69),
  (-3754092421718877429714314525761519021787631896344301745834088, 69)]

/-- `coif7` (wavelets_coeffs.template.h L1849-1892). -/
def coif7 : List Lit := [
  (-8642436297638419945610948131417508321449359042880382837616795, 66),
  (1323092600668737320653618189565188176193563004626002735569108, 65),
  (1238159302411191700694316904823586790698547751438666389964909, 64),
  (-2030827471878621660379666662315021490193874834607822591973651, 64),
  (-8268301617880235510290843066205662542616488856061409195612586, 64),
  (1489005690114437686460337716452079526238674405271430102926760, 63),
  (3414934412450460679215304700817226231104673750197184931650456, 63),
  (-7027860242269773782347401141338545341343547479199220829531083, 63),
  (-9759879698174635975799287457121964575077621800626382384905922, 63),
  (2468545489421116360102434627504896094772630565645374342185378, 62),
  (2046157861402903980087467083352777920759194756736646791948754, 62),
  (-7463948234553393791576174267216063661913646014250615692345955, 62),
  (-3255052720695225444262327386510843067531614239181091226317606, 62),
  (3032701839810768064176188260727440638632962820833222425246103, 61),
  (5400990244606528900971955967395441757408783874674606654776292, 61),
  (3126383971738483006163784309975347847899010543829381537178238, 61),
  (-3871497424779051301839419764560067767205245057921330411662831, 62),
  (-8293907947422769053048964127950429060647696494556080282464817, 62),
  (2949014117259198370970425259971349135137714379653805589390139, 62),
  (3110778126696628039496809790347026077516532785378620954115443, 62),
  (-1778674610242698080195492177636195380628008680534327644027865, 62),
  (-1127612352465961805417517163375322309389029593356595515710364, 62),
  (8522290099960163136478259451975210336102817817562221392657719, 63),
  (3840520687530513060929693850444023135936063807811968697808645, 63),
  (-3265307484878191553686608663193259573061021023330761877609170, 63),
  (-1273879229605184944648413513123685328329522201334094650099164, 63),
  (1014515696091098223010746848382433126910091720031207326903328, 63),
  (4097679895401914370060120309164154094898913488243766819496226, 64),
  (-2609696573094586622328219462237882874111293043254082981395787, 64),
  (-1186646887145157446962850804940522053646675640116219334763007, 64),
  (5636383526557468584243108976415315613118268111676116113791335, 65),
  (2858866828380331402146557751682881290895951013741692838961144, 65),
  (-1006611544197303027244467426357681984010120261232862556289963, 65),
  (-5495099010556417822017774697665452170235386110376505191968507, 66),
  (1415682965517504934011008339473818198664994789606034408294717, 66),
  (8188133233610314217903522752009348948778608588070621911086501, 67),
  (-1463230575247395655425908281663831406004216665367756779712751, 67),
  (-8874835827294529368648499409085591173735229589713890206258021, 68),
  (9853606453775557692052504971290731996468795418172901924493247, 69),
  (6220130833773100584817683046405291459615130548784852993590582, 69),
  (-3237371065873786031415974713833345092654235228652968924822315, 70),
  (-2114649662048637955296836248309680136665362492693075345297952, 70)]

/-- `coif8` (wavelets_coeffs.template.h L1894-1943). -/
def coif8 : List Lit := [
  (2089031388199542217649735304633077946477575993553137874997499, 66),
  (-3088829676466960594403785936495123295795735325141186563064826, 66),
  (-3415065199420814308581377665735877442810613593316182887801764, 65),
  (5336794978475752885866749586223668039582360880077534324830961, 65),
  (2625452092146307108027768728326461036005400582791844219135485, 64),
  (-4409238208772274245312366838988697089610792049225817119782188, 64),
  (-1260955244697859087126122671343741939804055800993471565939717, 63),
  (2334035748516809401796699851512493931521487402803856088184519, 63),
  (4238998515964122916906367014472885263525332429616686168386780, 63),
  (-9010216682788485374574179959374952745626145790175446525921665, 63),
  (-1059137210972160452062877264732854070957273640727973500291258, 62),
  (2784023497265315551670806338623371354680279388669611745037381, 62),
  (2038491393825460625255433218588522954822776999829791972608492, 62),
  (-7790193780817760648856650048481215968473342802126754335290911, 62),
  (-3091398960464199635355286295557605183007519885588326376800431, 62),
  (3049113846932028296232414935045248095543039057351616871735909, 61),
  (5374812703269839615372906413514102630694929400948606989937313, 61),
  (3135612340595966380418077448086007870950549040456326333016594, 61),
  (-3667108316665038246204915903550010028035229188747930760164446, 62),
  (-8570923901203457457230067054960180625904745972345544735005669, 62),
  (2912276318941918093502808667205448538832711003842651923199100, 62),
  (3411957880301561499047582538207723820508873324357307771206279, 62),
  (-1884914078883376071043287013172570992844993887415459298291641, 62),
  (-1342459526650064517082192966318056581890805569912583356614454, 62),
  (9982558825082415904373108133470460186315362848702191453854950, 63),
  (4996294194193990739772329108378853011245087219628720892888460, 63),
  (-4353415716030435524873558659254500246467092155734985247834619, 63),
  (-1798882274878169625580021134613003566863070625422298385086326, 63),
  (1580842866685999532270584538283553531040029730619088591607990, 63),
  (6341164354094166487421798386547881496331208497274921165613427, 64),
  (-4859037288504776883185923185674204816335250660367189593401172, 64),
  (-2105615022500261821665621601578029342187313061309595147668812, 64),
  (1284762650553455535249206074613997094898698286922036784576671, 64),
  (6190332439714985153834932259246488292329875513962818749340013, 65),
  (-2932710247776567240870160300128192249260665410455632214571613, 65),
  (-1541634258578732960762233596163970199686495285352470015267722, 65),
  (5679130231196248852811714735791066544261806333156564637706958, 66),
  (3179814253819903951090335509892218398493686680727385157906016, 66),
  (-9018823843695175549580166675906964282301328192772638509290562, 67),
  (-5313922705051620291263120753790527283196870682052587236468039, 67),
  (1123841380424949688574412705744289982140965409566073018148117, 67),
  (6910143395859795983361485345968765950977315740669289349714194, 68),
  (-1028133863272738862101812736488937814136249072478179304322756, 68),
  (-6555732343557023119114074649273108865362704549509543350446188, 69),
  (6130612315575721972473587395696526436552798806104270539014282, 70),
  (4033910072490666571003953018881489938766267669840899254802129, 70),
  (-1785744077894230068079099924407862882873224386100989050429950, 71),
  (-1207731024612356156550871498168833597517735826635815624658975, 71)]

/-- `coif9` (wavelets_coeffs.template.h L1945-2000). -/
def coif9 : List Lit := [
  (-5066363823597422392806056574334164019913184490360944548316318, 67),
  (7278391993125473027029583168671424388748658656372670262448419, 67),
  (9304737272738569335426840667700605845237073216830127313873309, 66),
  (-1399166643491873035927397151326087921115765448962913723958371, 65),
  (-8091702401289310224621206748421921014290936300934460833068239, 65),
  (1288948603756442891955388200793566964011433484841725529675464, 64),
  (4429833292564910878782752821721584532350914860569614883397891, 64),
  (-7604638375385009047720991576053046852032649468701121074994496, 64),
  (-1712076406330546261864476465012314688415071394908910205115863, 63),
  (3250609771558499559986242897495101339387218580957593472948506, 63),
  (4965544559205420047336110923957506351279457718709199656899118, 63),
  (-1087293322510375296786682178855708097994536728252120886318829, 62),
  (-1121487186714498120022344911296954171366809171629939577546416, 62),
  (3053409241514424830665032185876170313664500941851818086027391, 62),
  (2020392698610770380447570514810463753302939216061746963067828, 62),
  (-8052780090649459945830240285306098489931000767407230573519424, 62),
  (-2950481547909572113527928936790826747949471856175409844500779, 62),
  (3061961521402196297060170641420108731472017553153312985302650, 61),
  (5353120232520133713115706737209774227378476257207779817606799, 61),
  (3142791902169524902984239510600746503211251765067043225338625, 61),
  (-3489491800009343033063601189229669581774254383120018514658627, 62),
  (-8792560957387142697108395104950963599558244039650648988222216, 62),
  (2861927542811334614253853950282153483993260752259557922334958, 62),
  (3665967931975593019562623910949450882200844831012366323592970, 62),
  (-1955945002554213167931774103463762372167104971118382178710488, 62),
  (-1538279230927754406350075858557526842247910581873511998413085, 62),
  (1118552122310349928798438523781104471338643824158961043502858, 62),
  (6153778805250375760539535917130018322120240439861388830004320, 63),
  (-5383941047406102653501165062580070636876629329655105558566173, 63),
  (-2374234426766700376811893833905319565227030464607844605997432, 63),
  (2201384480544939153490212385667343932208692420769790727070706, 63),
  (8978070631742198872611262172632408686645841161925814232909679, 64),
  (-7748091639808001244045755147010278445955718484470643940080615, 64),
  (-3271988742130504187500457463514277973862371006416232573352337, 64),
  (2382340816470993068532708118584131071285832153866665367058914, 64),
  (1098939547757907591024137319089517624469653929668339354098746, 64),
  (-6459841534412000641464605011582059745094736001136249665670393, 65),
  (-3262384353548798509572707535297893969508001470867657290979350, 65),
  (1539823757133791368834354345267796411124232848770592546980638, 65),
  (8354049038925734685227308673812966075026848925201707946720101, 66),
  (-3173574058801678589943416130953277710277471261605337088707621, 66),
  (-1818949869332426905097083388417804018910760658657704860329107, 66),
  (5517186750972799125927280958782447793255276643806997727626076, 67),
  (3308966123618421063439933908570170555222439095610467058151640, 67),
  (-7846530733490392810972396794430929632826504340137889923489193, 68),
  (-4890737315241025544677728915264690823141541323355311455146920, 68),
  (8750627874791451325430828577550291173132606932489491650978024, 69),
  (5638473635810843029376963642806188780738425364694324846641801, 69),
  (-7167429275081674956250392820907257304489315331347262926580420, 70),
  (-4754207280832321963819557935464843642627576884386666887645887, 70),
  (3830468826216721628160165172614737318957786647293037946018968, 71),
  (2606522688312826422093936510197703125780060151935658173250167, 71),
  (-1001456631869681899515352955030379117902110811720682559024841, 72),
  (-6970967839322873084383232882845795920838117679540306239345441, 73)]

/-- `coif10` (wavelets_coeffs.template.h L2002-2063). -/
def coif10 : List Lit := [
  (1232039860648044172279299405224082875252688628145893763395790, 67),
  (-1727295600804314762711191670132331791341141012661151334481794, 67),
  (-2511081517709769407961552319066117068245327429766666733928049, 66),
  (3658544046042552874351627900962366978528997860123373895778793, 66),
  (2436668276348995654567141715803151760606013118025710110377401, 65),
  (-3722543982033220274394394471108112000512191070987312940916252, 65),
  (-1497469279949762172542844959871018020917187701428092381975699, 64),
  (2428593780445920993243261353647084659003272232610773863151794, 64),
  (6540313182060373357098490399551418144208877502266803289923939, 64),
  (-1146063191568871560182378726825944083414392177714466101235875, 63),
  (-2159498802066973425125604747126061872540389369353813104148470, 63),
  (4198356898750693446005403941056755251392636143022056890090725, 63),
  (5598275450294209413911534747591226887261098750954757306041384, 63),
  (-1260095805571421166223679712763560488266840720081803933722030, 62),
  (-1168247265355164122837179014169010489974316491167398434017964, 62),
  (3285412351493396730558710291243592888780292689130164184828513, 62),
  (1996368405025267515773975348713442321055648689376329104127913, 62),
  (-8268628841732119164746367518414478774806468603519900610269584, 62),
  (-2827515877359611439071634624194631537427006948348240041241060, 62),
  (3072295399526691328155262418641709088201200529352508961256835, 61),
  (5334767884906935739862412544069281108017755758434730066259645, 61),
  (3148528691610333337017175073118974445216093370484743945217914, 61),
  (-3333673484145423901496513466029874130150784824285513273324710, 62),
  (-8973828824876461620729131462736908322846203417126514244115363, 62),
  (2804975877403786393498709022507676088711706121355859697479949, 62),
  (3882650078944377967276663169043218713908993336081868910959595, 62),
  (-2001823819093022389853947550669865247947997489243455484715571, 62),
  (-1715959267288721579873571730849821259719260958329570391883719, 62),
  (1216641740406415476398704875951061876471553491032831272757748, 62),
  (7287002668222967317616933795891484580054714258414483676611073, 63),
  (-6330873585683910945116572500327893678512281593087324528956428, 63),
  (-2982656931766638403179439090660944850553111019029093184942893, 63),
  (2842726797184870190904247769487845255184476983143715832751782, 63),
  (1194989100375986838359310533134452087293580850721847113981799, 63),
  (-1113592929026716220582486976294877082540073971334172516478939, 63),
  (-4665959023435428623124863826904417915798780109069842899171733, 64),
  (3854915448171689185378413676726041277985033697385268395398737, 64),
  (1722736489049248280735630694200218710841097211364504157426810, 64),
  (-1192039440276314665828270011182318354192262701354872993867613, 64),
  (-5799804551608036312810594836126727444524814767625101691871260, 65),
  (3303955116680311017462087431863046046226866796792060186027460, 65),
  (1735375106985050789058251093166552848987592399630060085283037, 65),
  (-8153689583347474492592925111165323709051679031024702923650800, 66),
  (-4549758014112714450559595397423919633198378184124113284457878, 66),
  (1765789027517910443710091424096930382691903616281733579514694, 66),
  (1034104799224371158938634470768393243015388383126290286799001, 66),
  (-3293437798170512614804826256037338836342628817269828495710584, 67),
  (-2008825017273243555706624872035287742407494975566457013532182, 67),
  (5172869892752758054467150354777867503503057315845912340980461, 68),
  (3267471887025676044777185234904542674259187212800749921513620, 68),
  (-6644210603985367626472026676249006537350458801953377329083388, 69),
  (-4326722848192605397244652678298064482622875881609332553562911, 69),
  (6694767246505386091091135023442214060965867621406459703646360, 70),
  (4478193476940001390457010880530025539995676698350272513506529, 70),
  (-4958883523601264332798684165341380344606385498242825617652400, 71),
  (-3396977896617646756144544675014526730130390520604930211664642, 71),
  (2399541927897950965447863495074910322552410081226759270966602, 72),
  (1679108441896732974456456195021048198285552771033686283521003, 72),
  (-5688326582012783070559328035350356616163807538811872116072541, 74),
  (-4057351322008929507004790032757210978914475486123608161502457, 74)]

/-- `coif11` (wavelets_coeffs.template.h L2065-2132). -/
def coif11 : List Lit := [
  (-3002841270578181341151286551992204393218350582050331595402947, 68),
  (4122272295217427667266356780879156258114498741519631516920331, 68),
  (6724990810124306151562398023851821394904913501570357570065506, 67),
  (-9541360761072246280269422180608056185383175100955611359233360, 67),
  (-7202532561401011173077639437360684947826378373817567768549254, 66),
  (1063453162485789261522879856606560854907350313528134680849924, 65),
  (4909272375475312318494348591512780526373439988508822238418822, 65),
  (-7613184050961339338779773068101736230733664198546980476770618, 65),
  (-2390784892821873979161511417107775995428809136314600188678204, 64),
  (3943679383279311167583246559267867071442290440944189999981643, 64),
  (8853493370435959653823385085809947651235906281219659248568656, 64),
  (-1581686514051756535736270395427784669332587895176156014356356, 63),
  (-2590742746810224935563114329456904019725483278674143464295211, 63),
  (5149870818465970012295826228755714553228583889769273657074563, 63),
  (6145845672897527026066671647152239861924038000733917998375367, 63),
  (-1419393259281191647250120633508339618223543447429480888885451, 62),
  (-1203207413449444640173778009728050814154121296076212013667261, 62),
  (3486923068039100484429764121043168480751638068774959794674373, 62),
  (1969083876878412756398286849757105734674338626918970666727437, 62),
  (-8449176235282616008524865397153001199569198030863676330987291, 62),
  (-2718999570426944985720147291173682797300682913513030026037261, 62),
  (3080790765578655262603080397883700945436205022547475195838858, 61),
  (5318981263183423043747894675482113686160804211740980090048888, 61),
  (3153211471627422880186647707469009438784368258990685746892257, 61),
  (-3195766007061928848761664009258043321006644364041143491101353, 62),
  (-9124769812610534134560255473252823728312230005712995741316249, 62),
  (2745384767698916118757918507086581985709771313695467894960792, 62),
  (4069416828919323054368101934164054080633716017333800953161065, 62),
  (-2029580028320762422710091483209306643651315777764043153811346, 62),
  (-1877019961372162622019431440913198179510661354819964912645659, 62),
  (1296101510005597271938818874849814161448679262503765364267420, 62),
  (8380611488139723458203988762791929393262625838897962724368728, 63),
  (-7184830591966413369120495146871921423473823635538498945128881, 63),
  (-3609859908793898337842135309705990038242466823111355909651691, 63),
  (3480855644490575075872348257576088455972056599653664736521251, 63),
  (1519587122349825377958385405834371021723021014013798688930949, 63),
  (-1487476950041717485556524898256248562236771186568035610613046, 63),
  (-6266221323526552965740711288191177473318091288369663188353385, 64),
  (5669194750141824007727306877180277155664136228075876060283768, 64),
  (2483548169561553353815465009266736653140504966736322870003302, 64),
  (-1947562130464613262021359493483333444690328898219310892360572, 64),
  (-9182970970440133704016563635061723131880458403925476794220964, 65),
  (6068684153958316426511545635539425250648039719186543457181453, 65),
  (3088900022390199858477343797815906237906306891829977141838519, 65),
  (-1713715146668224571508596341585374794778243270230714316209873, 65),
  (-9308177549019247529116617185853630140339620355105237169582950, 66),
  (4350944607244218897315593155029012286145084684860699651446177, 66),
  (2489826198091695152209251895295085602387717821947484457226637, 66),
  (-9810226131982706356161587985205307909654994261025367440308819, 67),
  (-5860477917929613862778466907321520994203794368308376828863000, 67),
  (1935841542281693216091905456706113598339749921662496254592563, 67),
  (1199713894157469549665332933845486904444785619477457333399722, 67),
  (-3286315290852867745345772422742964814900623793534583508718160, 68),
  (-2102733655956564692974301994118024161699559390143901211493212, 68),
  (4697313377266824850774441291113868308618121213665395500265262, 69),
  (3091127346541495169376181275469205804231142302008934448079057, 69),
  (-5492931291038498819123339772152269159856609319161416280911575, 70),
  (-3705832674015332129353734352375876066802108394411578196121359, 70),
  (5043003455436262175385618694799102815016439527671656113021805, 71),
  (3478819684783597645372027295624442362976569795450758846730982, 71),
  (-3407139658961008818238265022607619145960800136177153397899540, 72),
  (-2397817050423233350570935216927526718398777501751418933159848, 72),
  (1505627237721835119751916336971964703936303188134672123458877, 73),
  (1078921592982513510792367677790040203074764526102391850430293, 73),
  (-3263876236830110071269528317803593334490309684938793753165837, 75),
  (-2377548488823423543125139291778920077224497814021891145988281, 75)]

/-- `coif12` (wavelets_coeffs.template.h L2134-2208). -/
def coif12 : List Lit := [
  (7332768095940030936479170284005726526900547838823690875511772, 69),
  (-9882788960094173321966534093367099204293628590516819427395258, 69),
  (-1789770690933674811780047200109598433010386971973430500672055, 67),
  (2482235718295242398333562594286195512316082783324858732252918, 67),
  (2096862898770904613564680054212556937787154121601629543533841, 66),
  (-3008997523302885197296541933722942006923516241629763269568385, 66),
  (-1569727511606401439531655092040058072751445499110659438977086, 65),
  (2347282446659006948884988502182500910534796840878776320306027, 65),
  (8432620671960839513456175441990492843161437159914478159180496, 65),
  (-1326465700910231806666155456982630828426491024439193157580022, 64),
  (-3461069031961523260598540665989975463806418435597964924450827, 64),
  (5801724592109383434087721189210231779950668973412340708531782, 64),
  (1128329952931538448642997807830809340563912699376148776100497, 63),
  (-2052978207989856468257756671236218003175082899217794093393105, 63),
  (-2998854718805581165102352821152213608341151163107294684246684, 63),
  (6087234661002692098937246236052456417362244403536977448648695, 63),
  (6618258248500649305698119745808151708404790949797235636697129, 63),
  (-1565844764466259880161945578291943699894979290174981301878469, 62),
  (-1229143532595011743051583354556862863433008454113067034110364, 62),
  (3663359030520896940491446552702346213307676159344592871561174, 62),
  (1940158311172772932244832520273815443263367988550797208188773, 62),
  (-8602421369693663560157681223178103065887873009243441444273671, 62),
  (-2622309610147498279896640360042796723325043337619084753451538, 62),
  (3087901191936800440665016928578559620370136549385877375418705, 61),
  (5305215546028922252760737677862501004955798466743925981589890, 61),
  (3157101125097144187884255713018906584467729236429617965600542, 61),
  (-3072728270411850832025519617026920233823691270616686168610683, 62),
  (-9252355517407954901591096183036942267909813631619741203079509, 62),
  (2685426980489526041311526911968158600872135457665305597171601, 62),
  (4231906584194910461336004572125137067789978502941750699346161, 62),
  (-2044171277278771763990740324636394218858904394719947562326197, 62),
  (-2023145788215137568397333973747514178822985181848891022548418, 62),
  (1360136074289957261858358098198061002684141161420690992513613, 62),
  (9426267566785124441978318969535742805562416304113067761168412, 63),
  (-7945708281838580982329878679291156067815423974682242221896984, 63),
  (-4244616137562462768873148640133872748101997290450405726506771, 63),
  (4099701294107222470709340142349077619300436310693220618061200, 63),
  (1865723923369076273507077887878603520484228647302554964863350, 63),
  (-1883095146836284131126558963690882906898471660722337699052360, 63),
  (-8050306441934266570411103136671969129999167330943811990532568, 64),
  (7774244768363498320173652454360791629397769478205798411568457, 64),
  (3372847962851042846971724663631080138529114657505401824166820, 64),
  (-2913208318185371820345028586920081498099751816901944041981459, 64),
  (-1340525559954698716569234001877227886256687091468901002407760, 64),
  (9982127673611594435680485331533411291981760920599082733502195, 65),
  (4937348728732130704294498684307923950522584256106944886949448, 65),
  (-3135036716312241024722693180559594774556478340860978546951440, 65),
  (-1658147773498940772484726369548058692747045913396859511266770, 65),
  (8993369381780249884815177697768622600696214964193331328463550, 66),
  (5029634518357754652723486937747064581822127275361432214835696, 66),
  (-2337864167664466494570925080931611944904459384149351585277512, 66),
  (-1368676631106717262348517888568825801321041470548296848624890, 66),
  (5450688318062644286926839313049161286349015828217309026636711, 67),
  (3316523922200394953147539061914190708715734274178414348860243, 67),
  (-1126508114108817402586366374763002332801656314726353024056859, 67),
  (-7087035083421007145362900821929976013240319835720189106840565, 68),
  (2036136552214949970328712725606531020556011014972233106738542, 68),
  (1319046726965912968164902682289037946241823978447803297147618, 68),
  (-3166087228464481990319888550523695148079523238750557992010525, 69),
  (-2104991149449598511738256933418413456831105806964526595267674, 69),
  (4146945431639040971236501326093312709747378328969720686955287, 70),
  (2821776098897944456514363403112985675647966425504805181915693, 70),
  (-4446983453406239471384232757602885317329111550023751533862821, 71),
  (-3089624808780293616300620576734718588630028421505260673719541, 71),
  (3747462360879854551489729939613548244791307999347455031364712, 72),
  (2653081274384644726529610503659130177381947905208003616541403, 72),
  (-2326413554174593468421370682954805683688973923244290583476656, 73),
  (-1675405289088832668656302656638525011959950143853262083260676, 73),
  (9457233677790636292829124094363707169383163229929980763002159, 75),
  (6917698090475727804437168736067302147625040054118083556555473, 75),
  (-1888230812078774308964339134901795324778762733781901178118498, 76),
  (-1401017335540698807093219863467094751924636611380629198255055, 76)]

/-- `coif13` (wavelets_coeffs.template.h L2210-2289). -/
def coif13 : List Lit := [
  (-1793548393002850396214718676857202286659666424187461477734916, 69),
  (2378211185014311786110879108757436954350720046766491611553072, 69),
  (4738378239463632066007380653022285879027956504083662158044852, 68),
  (-6443042549205366017018471056937057609502890297774359019447097, 68),
  (-6027665210865901726655682284996751140817763415224888556619716, 67),
  (8442063562432018658923481573987170154629168292318465207460091, 67),
  (4916019713173742217516567081751095460187255617230097133575212, 66),
  (-7131597545851986841244858233956149652674565400158665885083228, 66),
  (-2887621717983862897214028125602451735414281976333647039362767, 65),
  (4370659106170444884665034460659021177081728764017693131624860, 65),
  (1301010589502334343162340998315752253281092458614582842230339, 64),
  (-2074517436437432445981843921824038136707694799228389255014386, 64),
  (-4675659350970496983228743630930465551287595323790670572391233, 64),
  (7958726623965077575159821003474228536032266651825968350366428, 64),
  (1376238684291389421260151294679793034786767219476646917508650, 63),
  (-2547925839943045924066603828685111513038130582703762656864035, 63),
  (-3380448382429659921946074764411430359936216225160144993981999, 63),
  (6999176747558747594441502446219623982632259493449887383625331, 63),
  (7025277873701559172377638256697086265819697238858476588169332, 63),
  (-1700403721911182477272019360628329604078467241211115244215388, 62),
  (-1248110041093927898560561468789729670710805348798639274049645, 62),
  (3818992191138900815386778979798299217649095657811074673392633, 62),
  (1910593122449920408487253901211150453954067290839567103918095, 62),
  (-8734123305433746527793626123316474698117075663794485992246041, 62),
  (-2535440772516182914289995632242460491764482405133781896194027, 62),
  (3093942491825020619708297996329932122162946840728332042771585, 61),
  (5293074910143676049377270336094486347453907972435992671221709, 61),
  (3160379244009616024122892848920228469630372079810266391126280, 61),
  (-2962163220306191371882270857478632946112548274231313092509283, 62),
  (-9361576444399936039733984609999327008143196158286264947803189, 62),
  (2626405247194866459650693584890446232517026215635389354877327, 62),
  (4374461075475828517065334688194008307695911637366798984389094, 62),
  (-2049134157245617651216272008653608168147661681048849172375451, 62),
  (-2155975349513035485872319905355436164781967949252709342828195, 62),
  (1411469715539851095863611028564527062867149436850684547048665, 62),
  (1042015012705080744964255765999888273943255976544095301354753, 62),
  (-8618241965220092705853657584595597150491673418403411002408392, 63),
  (-4878411229018901327291501121500987653856731550945133361152065, 63),
  (4689231319014487945639277139124902021493524893685817080310457, 63),
  (2228006944652422042461995816835639158465376266146249271470082, 63),
  (-2289300216009735975701956488620738834491684014507704186201093, 63),
  (-9995141996257751415873914459680403989351818715310372734784204, 64),
  (1011237075436018016549433779140494575127827962961245293854167, 63),
  (4381342083712223181655422780539654899256457840343499415845070, 64),
  (-4077800844935014982451276827385817092870017635124843071185474, 64),
  (-1844040745436007917646038575655224990196066190810660605304526, 64),
  (1512620828188999164176721097533404532449113024454664717717400, 64),
  (7298889914269074881614764112188558106800789316340412477261329, 65),
  (-5182922229726125421401881179344203187294861819954288822285889, 65),
  (-2672839739746518397507211250706440905085295052637683361350922, 65),
  (1639620996879063097510387977200493175731056979428359020893174, 65),
  (8963666558523048764112718546851367368030517279319460108445549, 66),
  (-4766464838000155192746436553819324857933144402808057358218020, 66),
  (-2735466156072759824467664346873929524570661158335396527180534, 66),
  (1263996241706422344627321843525682342021921638088785036829943, 66),
  (7554924136965026151745000640360811330632516737592082697244460, 67),
  (-3031372027194064857797292192738025195545051465615020648049694, 67),
  (-1876153353569459383609680347900216851365226014600160596860682, 67),
  (6512178154867684103162618794588474859582328666119453018835115, 68),
  (4155335593309412282776259416691605536103007067016402041304343, 68),
  (-1239596814755558143100692869308986827004606690663547726503092, 68),
  (-8126161332398177051328184604237057975154642800593274318357692, 69),
  (2063790114950702612059895249532033343340137201326403800942906, 69),
  (1385901944573589656765876273409079665095347609123824623959651, 69),
  (-2957224178853409095488876110988057035662351440629962056952036, 70),
  (-2029311934113340193298299122766339237347606272015477168851847, 70),
  (3571772829282367453820656456837216050596922160503361259637188, 71),
  (2499410377682389724091314347623318996671569127462013112818877, 71),
  (-3534890218851825710748828088218388133415831376956616696797412, 72),
  (-2517884527624136958659745558559312992706644927689162729125510, 72),
  (2751761925220381284379520354168022844435052022760463778480642, 73),
  (1992032170370043447922955009924406643179442598661368210363579, 73),
  (-1579660989452381199649841550208895174521301273998672860864606, 74),
  (-1160591617584672995112625842000957667465588057411636690187883, 74),
  (5944365969270122882900608066221185975352672745351687370149379, 76),
  (4427175531427877551269875594300908130209116956704562714053338, 76),
  (-1099853008896742180355036418837212161914020836623592509294684, 77),
  (-8294635939298345162821665414627459859677158780165562383375210, 78)]

/-- `coif14` (wavelets_coeffs.template.h L2291-2376). -/
def coif14 : List Lit := [
  (4393123283287643046743977676392679809833123671791969857529554, 70),
  (-5740995333980705032482946798804467194492616738218164095035288, 70),
  (-1248927009234748737577807595315202881486499763243765085950971, 68),
  (1668938708534669081372944925855130859570883667030296283192275, 68),
  (1714224718466457012729254240886670886351889068326223437908249, 67),
  (-2350888489707823711598280869672645467891128086655653747378426, 67),
  (-1512829449512444398231569819651340325454203862764615475827846, 66),
  (2138843028494803759906484297432258680083063727505990520765838, 66),
  (9645189410175859129875925155219070194081512175741287765540858, 66),
  (-1413900766434184664705667161036292966126778120705989526301092, 65),
  (-4732386374886606069931596084808261069441902397080602834581236, 65),
  (7246665915416318653041426061722482786676878913517175624718883, 65),
  (1858717516638060924675018895058421783537325657288962327083514, 64),
  (-3002639346667087045056450058456524356780635529605230858304448, 64),
  (-6001981648119978322839905692747076742955350870879313864711891, 64),
  (1036704424281183769332139455241059670502046121189437350622494, 63),
  (1624019729102622430009407806264396637075700567293622239292888, 63),
  (-3056866654227471285910973139305702040302592610826831936007958, 63),
  (-3734374338375411359548223317593068662165508326760318658468879, 63),
  (7878974156362307531137246310651783340668870035859860685992973, 63),
  (7375794892775370758210034597418329565084392014608514718594919, 63),
  (-1824112316356241062692741179162085194558935295694349102012547, 62),
  (-1261644961352131486551701382111180567640901225706461078977920, 62),
  (3957213740580164637883912093052435411100033612855489943952285, 62),
  (1881013375897047936537530404984248905528105177371268733601760, 62),
  (-8848531745012440411869086432922856738256941097681738588710806, 62),
  (-2456831883802970358635588048610460583666496666472048714250036, 62),
  (3099141258514769597675719014297798938256245460277150903434604, 61),
  (5282263993480420420172683726700426615634588134049161997619639, 61),
  (3163176118910136471847844244749096048202155473691440639981631, 61),
  (-2862162705070505721847062425772578719710517153178747344517326, 62),
  (-9456098562568806415195259578154116428430268415200065101526812, 62),
  (2569051606124748855707310139514692975138855764331441058027644, 62),
  (4500466183802795354926526381495033532360504829689303112753676, 62),
  (-2047021532120584933449635791950977974026461349249053431599797, 62),
  (-2277014831481950414178652294664971699995306130850012029895679, 62),
  (1452361964346076643465698934593935628651549016326324569145137, 62),
  (1136128541937039082819287050631790459539185066230834792169280, 62),
  (-9209420947381265408066732190659507079985769827890316211408732, 63),
  (-5504969422021670816364481890406139436891358063842746391250159, 63),
  (5243747074749862954985821475569406094355637198674133818712452, 63),
  (2601674598427237622587421382305601947017094209097298433834035, 63),
  (-2697275841549192002303803931030430917736443859609363181433549, 63),
  (-1207776471356184889908600913725134183482141825908028112001291, 63),
  (1262622737054852256202461193382270265994430106051249583099008, 63),
  (5499311966045329956589364039445100979613421696316486920186038, 64),
  (-5422272627380624698839955658312215512244309349484916450185708, 64),
  (-2425184361340171436100075350681685661504913784969748899389596, 64),
  (2152149496400025476355694208172147853936641059086477755698365, 64),
  (1017555903218396117566574602158457196612571864784370737617320, 64),
  (-7935125388684553688655161870002244461407761128159434896618062, 65),
  (-3998277597219932662226493843559158394980004861650575475073792, 65),
  (2721796546580936689236981518793293817082739932936290854597108, 65),
  (1455457611510765292828084081835640403374221862390765492386559, 65),
  (-8665251169633984802148726995857663363842070697439942022312573, 66),
  (-4876002876304524386897822246961544519628259634511055566637692, 66),
  (2547630497377554690874245620888763103208548188356120375663417, 66),
  (1496291521165122830795751824395745883743697658779928306182602, 66),
  (-6871963182955767930114979093149987762546939511820085867823395, 67),
  (-4186054213338905216716743937485713975287167010801084873077525, 67),
  (1688323085510447043387946782295494719025294305992339556134599, 67),
  (1061608664532340347260400721455574451686604605297267706650340, 67),
  (-3748126052504886126462262044258726754387739289902914735975186, 68),
  (-2423790421295234792457591882318039900764790491363232906013318, 68),
  (7451944128021296384873848910815562162615603046168848323657834, 69),
  (4940829113027976152032509192714512864500880531926251999539656, 69),
  (-1313004290651891746787587770064129324937346786322188934177725, 69),
  (-8903006190166202390134120838864396696475015840820998020804486, 70),
  (2024339408983577773846670331538285833569817328592031229378977, 70),
  (1400716332649913272902011493738096845560270049348128272163217, 70),
  (-2687843639588594104182180535839092397502172743578767496300069, 71),
  (-1894326416951989057103502558801200560928286148276804817046860, 71),
  (3010449065125004813763195657162392547592377042598795440577733, 72),
  (2157549110009031291962129877779262524544188824969196959112637, 72),
  (-2765131213310687469788780767616475716770096486689988092675382, 73),
  (-2012365100006663638325338350119352463903184738855668161185981, 73),
  (1999559651890099694974046277400337493312467655228527142562129, 74),
  (1475855904098499257323658940826580143845487753742438097885182, 74),
  (-1067284385873308952698526062594338734883390319779112369515680, 75),
  (-7980454732861187078908378609623987154745352892645906516335706, 76),
  (3737960558513592434172838302437103561627990707012528832920768, 77),
  (2828736827706445597408742152789813333751511825684331285246309, 77),
  (-6443221017103948534696419228196665121335677484790396728190832, 79),
  (-4930480277882556230626331748820167974609092329853622801401922, 79)]

/-- `coif15` (wavelets_coeffs.template.h L2378-2469). -/
def coif15 : List Lit := [
  (-1077388305690034925568519317607342584913833777614742512289616, 70),
  (1389587596342677833974329883522061230029685955993897881938371, 70),
  (3279393998194510988634872448273529681786105568152537128188232, 69),
  (-4314917428064750425742001408005222171763816486950620059656063, 69),
  (-4830480955281757774084367520164529040833872636548135345926328, 68),
  (6503442589750190197880818956936279316947206899423481669747179, 68),
  (4586202226530976939526210331832939590139698224375343383858299, 67),
  (-6341483528169214053400193756836695190022413814118163945498651, 67),
  (-3153995479916402549978249764513192992770609509053150015780527, 66),
  (4499804120432346419024095680248633407936442025574963153980269, 66),
  (1673949137596284707730217911852880032270066826000466620282769, 65),
  (-2478673953689472562808496884430051456931244781632393118270780, 65),
  (-7133403721727709318079068467834164023289442323885459167236538, 65),
  (1104625554161070296128803495762953054143520115043831806016786, 64),
  (2507269022498110858235302333943956572610456366436693548255909, 64),
  (-4101297424840067893342949874400724512592760895309517943587399, 64),
  (-7410047143677847135223722282750946641042780322618912256742384, 64),
  (1298007949810447142342589176001928848518589813981439840532480, 63),
  (1868002036616641522111287518387513439361411763383193116215989, 63),
  (-3572228252449254403963990114096416980805538949675814075573840, 63),
  (-4060845546989816000749383711188465103702344678606463573419343, 63),
  (8722973601634679156834244798678586473379340842447624760010613, 63),
  (7677632624610885216379589736677645849428563543670856456892832, 63),
  (-1937998629272623327245351651340032378963145895629830248355253, 62),
  (-1270912987080621205738379925710726654478701862241529402092432, 62),
  (4080738066060462170763876758586958836909785300855426384151542, 62),
  (1851809057592325149969383820293931082576986760496903450942510, 62),
  (-8948849897626424781521688387105939501138967888885573845565360, 62),
  (-2385247670399674430387895964623311594722573671400958395974253, 62),
  (3103664257008206645231191613171869470278587854279025003466673, 61),
  (5272557364814477983716848071901714167787737772153872785679251, 61),
  (3165587650075045121866443592930838541058283366878004666876859, 61),
  (-2771191753156204367193336798361266628380497625857187392479985, 62),
  (-9538675074777090841664081647061476726485316724852952970342536, 62),
  (2513756235583785139515577768765056710377747798734684870047976, 62),
  (4612595054152007266785799039333521785448817048938105661049367, 62),
  (-2039697130032260717744814776948275153234836586193746022325595, 62),
  (-2387610261602642412532087773123245712932154519493636933580111, 62),
  (1484665336652742504720315601481410278546028124094856659564326, 62),
  (1225045078722903548958708772567092776061773279630721958212731, 62),
  (-9727026988684677132100204448228164919286050721340500899358847, 63),
  (-6119790408666201569472108881793143052368912545364690258267249, 63),
  (5760546284765569349029577236247005441326471924211526110831333, 63),
  (2982639689783411796793051935450475228274526754982054792962250, 63),
  (-3100326747810698908670357861857946527442099277807566353764288, 63),
  (-1427598950056448560388339550760364489836477975524209634886824, 63),
  (1526288902864820487351136408213978592286541943096968601069530, 63),
  (6716807141163574375155812673929624759515069203426478824767004, 64),
  (-6923091961922026215168169239588952998971619503794813547976866, 64),
  (-3079753690537485675760336348529151045406687032785607559287851, 64),
  (2913765589242728312575501892839254155123375897451413662654452, 64),
  (1355892883935182989877008830272296210763299728475431240359051, 64),
  (-1144136457600174453829439526659056859019745676077854858593439, 64),
  (-5647366526527395256230283878165734782055526539079541637152500, 65),
  (4202814469137045804231920127700407277374824908280103138814183, 65),
  (2200691925199183606470694553320593703444346894670462898724267, 65),
  (-1443487126829503983751150823245149445739823542713233210642676, 65),
  (-7967044068720793687142187645523516573594381036006224439668751, 66),
  (4620529572512414091638085200280358471196525782083614164517925, 66),
  (2667271171141226202145908685103109359180536100787642097511661, 66),
  (-1371646007677255108283723404199936479217347063529498435611186, 66),
  (-8226257775777933787075210506019317042435483731184419620540542, 67),
  (3754707488446600189267042303254271529522879725934705336303128, 67),
  (2327460534735607792375886758810039203536663498026314128685740, 67),
  (-9419176207630012538547307468277369699399418776908683708933552, 68),
  (-6010901363192621272223652431192551853015388169886067903126279, 68),
  (2151040529867103646106333296464104096442766675831068812680466, 68),
  (1408663721444152455727196509866657267275259238167897249854527, 68),
  (-4438471764420978016551707826632529934591397495469950610230150, 69),
  (-2974872318653716789002892729632634360902192191395110942422961, 69),
  (8203736354629479986724051586473684219941281670765722417668819, 70),
  (5614906982011763291961026759329761169245818883997411717426871, 70),
  (-1344369082215606926514414754427875310059984578418456061162278, 70),
  (-9377858898150921640144384471918102613403240839501295781875527, 71),
  (1928845257086926701816336874687366534718638777936590534635229, 71),
  (1369011182657074022662376575505428888871791726174235399548870, 71),
  (-2384934840461770473688929159579828219691317417791483110727798, 72),
  (-1719778967631011393923929779685944798509748321140853638527672, 72),
  (2489379237039083598560573205355055108535626207998662168681925, 73),
  (1821429711569697474507499816102915339752696477298299745504329, 73),
  (-2132622020734041001406592439010728287329439597809749096351270, 74),
  (-1581480392919139876757416822279485491215786823105416373080481, 74),
  (1439584163156225165032712921349710482363055530913169445190637, 75),
  (1080870877608085873106724565550332487149959687560803170944524, 75),
  (-7178988398852581130761463819471838970960348029733518906208378, 77),
  (-5452456075593213060858973182314766684639894698667113525487884, 77),
  (2351146114661327422889598894161189162646924206890382575430334, 78),
  (1804873032260938513483901979969512893697634895683128101624000, 78),
  (-3793093840880643734719632714511071568608235299231836638122279, 80),
  (-2940897685979289093951754752537580047693528343881245635936847, 80)]

/-- `coif16` (wavelets_coeffs.template.h L2471-2569). -/
def coif16 : List Lit := [
  (2645128227931334401194749017856094903839224759604187535975348, 71),
  (-3371203198492327805593180795398582247961552853458158404332701, 71),
  (-8582602955015851169989985547605915833769704579350018283905453, 70),
  (1113682743874024896922872631560006089322116513037553196433140, 69),
  (1350357555669007302187662129540475982947984508250679168402207, 68),
  (-1788542662216945768696335511240007863403120034978963421466759, 68),
  (-1372399767643349435868829666738563944471884881660198607643932, 67),
  (1861142798232072777457875152815716474831537306031011659394987, 67),
  (1012632916853084889127303847166996705778109099232881893357767, 66),
  (-1411391218929900871875409836854758822959995175269209988265964, 66),
  (-5780354906513060544090253238716694637224354416047278875195167, 66),
  (8319552925349192408642980463945086193729912325909182155797371, 66),
  (2656172937335282438452193694808438866757101525885555802877363, 65),
  (-3971488503705784806195172735954055483778562353132473949420383, 65),
  (-1009502477694915360037551527344779468467449497309371492607906, 64),
  (1580205984850860534574382720595384850826996029171338643269624, 64),
  (3235585956460851636390368611428001979093146497993005344305241, 64),
  (-5356766020478135601304959841352994036589791570941083598445719, 64),
  (-8873556546319179065472262621811119401586608437112185894641021, 64),
  (1575478281351532632439717118803866388929199851338529206979138, 63),
  (2105606651204431619054524746734864557623457229083947484722320, 63),
  (-4088191894353650561276869582147927639352373035186017974748492, 63),
  (-4360872292782198728376270454745337063294048791901294558973734, 63),
  (9529568586822569351636224042126142702339784399550130407812201, 63),
  (7937554616751835390855349461479084645184690272876975812761538, 63),
  (-2043028062273575036423529610008583445387419918322244014076844, 62),
  (-1276805798943377800134681508900535312774995954006995157514628, 62),
  (4191756976239118832120686348770409281363202997039966458608067, 62),
  (1823220381522837114361006424809362329414770645451392462449888, 62),
  (-9037537219708957768297195651417043288020180323453952191219619, 62),
  (-2319696593669936172505243393626168348704758643822052626742965, 62),
  (3107636928082792940641010571409269845541349652957861643505019, 61),
  (5263779607858160898968654079428530858936436413545697317378081, 61),
  (3167685981610576430160454114053628826549777499820093838585069, 61),
  (-2688002764399130975457186260346246083982252335484396969696049, 62),
  (-9611413622779535731607299381683923415585409438866982806312433, 62),
  (2460702264184366170433044783596672126378075093050623290409127, 62),
  (4712982774514209557951414612253477983062538454664569371378627, 62),
  (-2028535796367687397692592233666898932654122251735124185611584, 62),
  (-2488947090480479804467455088466028171550905433401327138474797, 62),
  (1509891466100476055081827485608676509355525843509560496666700, 62),
  (1308946215944044192535019406077351673456069366724670016932535, 62),
  (-1017883680802027111277390598900318783317279547588070199634251, 62),
  (-6719748071003458935775571012030544444136724430402220957162335, 63),
  (6238935489467385921022852560870393671940489207452244538094472, 63),
  (3367468902298941859370206452925695206983662336670801038560071, 63),
  (-3493551700182803646132263836442232208288107750606295145197587, 63),
  (-1656892742742846792662641923332649254682158396970453428791079, 63),
  (1797580707568879158693851162651173871535491718081800368907782, 63),
  (8023813584888036977682855962559617079147220211451113235479547, 64),
  (-8554898439358329127957776138969823280630767426284649193621767, 64),
  (-3803250541195305567062453832052319106641157897723285573667716, 64),
  (3790575215750319491406179627066855114144121793545714885424013, 64),
  (1743405946247572050905785206176608832450147638063148826743472, 64),
  (-1572439781316405883265776380849622489840291930399907686729106, 64),
  (-7624948592584476281257978178990423864516589094309239278548039, 65),
  (6128060596774506984228013865022369414316454857306786928520834, 65),
  (3146741963266068084535293135528229727240575644439933447074425, 65),
  (-2245327295507508821937104934719536410602401822650676684612963, 65),
  (-1216243182507186686293172059854826389902098520645342122978134, 65),
  (7720917364617828003652627867578175616946793895014715674935806, 66),
  (4381753178661449645296516382515863584261691809111376008934184, 66),
  (-2482767124382555232483399147672417058164552715497813674691440, 66),
  (-1466343698163771614780524818641106403735083198445173705132776, 66),
  (7432014174835368770981871416234950435655553162638884480980583, 67),
  (4542989331759269644535718413196051785388101460827659003970839, 67),
  (-2060699879933986058206760300398806699720723820737944360367781, 67),
  (-1298170865048347187816076578378402307087125075336611133383038, 67),
  (5264581641375993977610164728920521257086259803613235153366270, 68),
  (3406393391619068289195417747073909213446800676676765817676367, 68),
  (-1232185691522856953729451450757280208371851915642712294292861, 68),
  (-8166093443152050070015881861916421702970930717440939870025784, 69),
  (2625409011502555900921203294713520941212542142978903897341494, 69),
  (1777971486566651937150629742259638331676290922471013840418127, 69),
  (-5055670327267217324394512474432436609546961385665820073629149, 70),
  (-3491603047784209234885018449563067499142505674739795662842523, 70),
  (8724442027269310202793317644100398216549268990858642429012803, 71),
  (6134056646089015827615754897419277972739575045939973674430929, 71),
  (-1335550933533140093069772884082926341856038121300357216420744, 71),
  (-9545001301055681232254913151946668780573427381542116387716243, 72),
  (1791132091052570705585609717173338686203233385162086497884597, 72),
  (1299479612944140546458425080979636378248568664374156541007765, 72),
  (-2071542478174027600308270770710599707024301130761618879837078, 73),
  (-1523876419589572596433135600175398293765409391592690642809664, 73),
  (2024011564013098795384504309899456379953546444981404140928647, 74),
  (1508090533430543564179721448102668377867975040540446828012097, 74),
  (-1624316869855319846554453444493486257563508484962017834581348, 75),
  (-1224719779181149805165600696876308523367619824015832031858679, 75),
  (1027939569018525333323110570745538777072560620646729968488678, 76),
  (7836461641294003176782800892601140107677607857155479918585838, 77),
  (-4809623970748619654544928861639842603928203458148585584400867, 78),
  (-3704428468500691125388142845245956973807333959654959653370468, 78),
  (1479077310414365270465857340835402997778146774718460154867300, 79),
  (1150168591577669048697174066699145993471476194503387272230234, 79),
  (-2242407694525583556140058750006128491924916204038852290292985, 81),
  (-1759447752651847364048938898264828071373418617420955762135442, 81)]

/-- `coif17` (wavelets_coeffs.template.h L2571-2674). -/
def coif17 : List Lit := [
  (-6500464389707599365209386548586351053892021378458138653304423, 72),
  (8195092532207287031929315133511822259455558174314608981943899, 72),
  (2239711179183031212893330219097909418305437894719629936823048, 70),
  (-2869947756536888954496920486027606890198732779175975385193469, 70),
  (-3748652869247186892176371615982066497362408141014325378716294, 69),
  (4892949218890121214706505923918329440794016605904313473814529, 69),
  (4060535996907768482760233032378242455655290824022613838518523, 68),
  (-5412800273268200651966255945372126329232373624996043338727765, 68),
  (-3199646878369895994575449942065193991181771279589753273012370, 67),
  (4369727725871308893880916467851990680716049438182815833632030, 67),
  (1954675426993304663744299195821942913722501797065421760283585, 66),
  (-2745513146733188764932399232387671708256227137296795085887882, 66),
  (-9634412972188383779747780077033215938910939748761965263335434, 66),
  (1398510128440620079969365258470536422184684456048432702271769, 65),
  (3936982972446342694180294131275967364969863087882012583523302, 65),
  (-5942171285371293607280496067664382735077180061970981330506268, 65),
  (-1360187671549120330733322490500505609713066081377747046659631, 64),
  (2151477677680517385918241110555023784071910115637214853600854, 64),
  (4031846985142799308758422861627631567915210555326501592195629, 64),
  (-6753056524717059857256997400254135291064617085196739372670596, 64),
  (-1037019038482154436516186769361377053347840390147975287354903, 63),
  (1865278399043969526599364729851177613810456808562792176901007, 63),
  (2335092479166843852619505691860960037151295448017402395490464, 63),
  (-4600362410545124310128593731153519957157915045164845600048444, 63),
  (-4635901516367530468266774633995064938864595165304482662269926, 63),
  (1029849878093488912016135237127927932437021681117450333050470, 62),
  (8161354844742695166287867590528306934013230497272094086439853, 63),
  (-2140083454707180990471957764441619892415141666259178396074188, 62),
  (-1280013066407215003063560801494039614508212222821778081264683, 62),
  (4292055861596262214973257156936151304056714777314126061614130, 62),
  (1795390690266262592020002418739607395852481356276768335967618, 62),
  (-9116513012907441746922273129338011409075492893988681588200024, 62),
  (-2259372514218996220695158554614204610976204851195489170219594, 62),
  (3111155431954246180810318298644662465180042749292370227009409, 61),
  (5255791920096491971882691260862499824764740619924123678110320, 61),
  (3169526419329032746356987532605638232939637480462148442295005, 61),
  (-2611571666365402171510563042119336240297149649416458785911946, 62),
  (-9675954853667507935197631998670465823029201914294383672129969, 62),
  (2409947009460623399471523812196780471148876929014194101062573, 62),
  (4803353218498044015416060073004473385881416575908077296603559, 62),
  (-2014561229992014297122142514992242081365435497050595479226927, 62),
  (-2582061660161950684110954569039206647948969052599286532681994, 62),
  (1529272640253308240084109219531756056459883643674183337274434, 62),
  (1388071397467832912373059115868453151221079623138136285750566, 62),
  (-1057221105345110246802817506341466648095287774314054180322389, 62),
  (-7302762653438232901227689142950547329538140829539078289487808, 63),
  (6679525479155670944534388145244600799904556867195771509687913, 63),
  (3753327910175261617061638983698597354605196849112621375976962, 63),
  (-3873502044238494209221075063035775273773018743760471430473527, 63),
  (-1893732606269440797293869629956889668362203362383552157238979, 63),
  (2072543024867895178559272835210161485056077281253166510139696, 63),
  (9410418747008923962829724903349867736584130840706583199324136, 64),
  (-1029236208596613388068225340603899734435060101885503041426292, 63),
  (-4591014336769466560134513688989777037625141817691452272446129, 64),
  (4773008760819621131157362935521176506345390013016953367673484, 64),
  (2178204082961996755621953357319268908714183698410765755733914, 64),
  (-2078309675413889310430737904787028903664009273165646558840663, 64),
  (-9929997042562200063281249722482587882228792457135570086630464, 65),
  (8530214005775875557344845401830936434184861259249422544962929, 65),
  (4303127018338600126871147843984523103940762542407178890295340, 65),
  (-3305701987257830145946843240723975476098534205446659095902282, 65),
  (-1758829650866963971776918784161632040379719078606077372721020, 65),
  (1208769577843697327040603409274814451217826643812352568992268, 65),
  (6746467675120962867147670937319739759733836479700116679771234, 66),
  (-4160355187316342019270990597595419877216228873682832991804769, 66),
  (-2420254904648915254014955740890841226083885744291947005091657, 66),
  (1342994249603250343064678689811024077753583828488987218045940, 66),
  (8097294554089061667504430331210249043842934823174097650144144, 67),
  (-4049444940788524829884048775715404594466969342774847971126013, 67),
  (-2518965167469206882003809454171378587968607051431751373150446, 67),
  (1135553617795151208855033374367694728763504841965654332076720, 67),
  (7261651917558697862566637161896385928154192436065001744633099, 68),
  (-2947980283978599533805321526934370923141985995773718687989809, 68),
  (-1932361910368835906234029388933678481624943182582035193495632, 68),
  (7050321193690929766855893625237523724477327743751448148520006, 69),
  (4725540898626838453733797773219853119997567959454100093653807, 69),
  (-1544890271654104814899353348226128082357337920194464818206503, 69),
  (-1056616142600432792887732860128652200494175165768667682069691, 69),
  (3082594659999300699574359679210901640096775130739951087627160, 70),
  (2147504833829198392113195006888709994262573995228896673552773, 70),
  (-5561286894620042086964943668161558452409502342704415471486767, 71),
  (-3940143496183440249847057247704879900653366187527397859030185, 71),
  (8995643580413385770110048797179920790859544777777746910312038, 72),
  (6472787221353141291937900214024339897450801045313739690950453, 72),
  (-1291529680835762905157565016413333440330657604408304192114484, 72),
  (-9426669651972276882689445158605509492502686267040217113580068, 73),
  (1625527264466347733962941488626801955710436180523082414371005, 73),
  (1202192377372031845627082725619201334357843245869818759928528, 73),
  (-1765518459644471564018808330096255160185888800253188548281582, 74),
  (-1321779015475951542862804164493083633990380882447565336832597, 74),
  (1621075287427611093636143991429535087675201571842337901672180, 75),
  (1227498087932053340876125326218310922521150243946862677354389, 75),
  (-1223432402366205698930334886661193082730379267225732134795174, 76),
  (-9362464931639200345906241184043712676525956780242932081695469, 77),
  (7286307451400376946525901096753718888478670661483802452725131, 78),
  (5631244920089436674573794405513798919334447045845529038034991, 78),
  (-3210669220728058803342344742726907080377349121830123276313938, 79),
  (-2504389307995414770751414118526232971373346964470499339128194, 79),
  (9305380936099856808127703965979897197171695480831630403884988, 81),
  (7321457794081650002123376485818067154029026613875178979778160, 81),
  (-1330546671429478643380151195298922795778536160301584472334406, 82),
  (-1055408614665356789775787814731337905514088897800715301399902, 82)]

/-- `bior1_0` (wavelets_coeffs.template.h L2676-2681). -/
def bior1_0 : List Lit := [
  (0, 1),
  (0, 1),
  (0, 1),
  (0, 1),
  (70710678118654752440084436210, 29),
  (70710678118654752440084436210, 29),
  (0, 1),
  (0, 1),
  (0, 1),
  (0, 1)]

/-- `bior1_1` (wavelets_coeffs.template.h L2683-2686). -/
def bior1_1 : List Lit := [
  (70710678118654752440084436210, 29),
  (70710678118654752440084436210, 29)]

/-- `bior1_3` (wavelets_coeffs.template.h L2688-2695). -/
def bior1_3 : List Lit := [
  (-883883476483184405501055452631, 31),
  (883883476483184405501055452631, 31),
  (70710678118654752440084436210, 29),
  (70710678118654752440084436210, 29),
  (883883476483184405501055452631, 31),
  (-883883476483184405501055452631, 31)]

/-- `bior1_5` (wavelets_coeffs.template.h L2697-2708). -/
def bior1_5 : List Lit := [
  (165728151840597076031447897368, 31),
  (-165728151840597076031447897368, 31),
  (-1215339780164378557563951247368, 31),
  (1215339780164378557563951247368, 31),
  (70710678118654752440084436210, 29),
  (70710678118654752440084436210, 29),
  (1215339780164378557563951247368, 31),
  (-1215339780164378557563951247368, 31),
  (-165728151840597076031447897368, 31),
  (165728151840597076031447897368, 31)]

/-- `bior2_0` (wavelets_coeffs.template.h L2711-2718). -/
def bior2_0 : List Lit := [
  (0, 1),
  (0, 1),
  (0, 1),
  (0, 1),
  (0, 1),
  (0, 1),
  (0, 1),
  (3535533905932737622004221810524, 31),
  (7071067811865475244008443621048, 31),
  (3535533905932737622004221810524, 31),
  (0, 1),
  (0, 1),
  (0, 1),
  (0, 1),
  (0, 1),
  (0, 1),
  (0, 1),
  (0, 1)]

/-- `bior2_2` (wavelets_coeffs.template.h L2720-2727). -/
def bior2_2 : List Lit := [
  (-1767766952966368811002110905262, 31),
  (3535533905932737622004221810524, 31),
  (10606601717798212866012665431573, 31),
  (3535533905932737622004221810524, 31),
  (-1767766952966368811002110905262, 31),
  (0, 1)]

/-- `bior2_4` (wavelets_coeffs.template.h L2729-2740). -/
def bior2_4 : List Lit := [
  (331456303681194152062895794737, 31),
  (-662912607362388304125791589473, 31),
  (-1767766952966368811002110905262, 31),
  (4198446513295125926130013399998, 31),
  (9943689110435824561886873842099, 31),
  (4198446513295125926130013399998, 31),
  (-1767766952966368811002110905262, 31),
  (-662912607362388304125791589473, 31),
  (331456303681194152062895794737, 31),
  (0, 1)]

/-- `bior2_6` (wavelets_coeffs.template.h L2742-2756). -/
def bior2_6 : List Lit := [
  (-69053396600248781679769957237, 31),
  (138106793200497563359539914474, 31),
  (469563096881691715422435709210, 31),
  (-1077232986963880994204411332894, 31),
  (-1698713556366120029322340948025, 31),
  (4474660099696121052849093228945, 31),
  (9667475524034829435167794013152, 31),
  (4474660099696121052849093228945, 31),
  (-1698713556366120029322340948025, 31),
  (-1077232986963880994204411332894, 31),
  (469563096881691715422435709210, 31),
  (138106793200497563359539914474, 31),
  (-69053396600248781679769957237, 31),
  (0, 1)]

/-- `bior2_8` (wavelets_coeffs.template.h L2758-2777). -/
def bior2_8 : List Lit := [
  (15105430506304420992449678146, 31),
  (-30210861012608841984899356291, 31),
  (-129475118625466465649568669819, 31),
  (289161098263541773284036695929, 31),
  (529984818906909399392234421792, 31),
  (-1349130736077360572068505539514, 31),
  (-1638291834340902345352542235443, 31),
  (4625714404759165262773590010400, 31),
  (9516421218971785225243297231697, 31),
  (4625714404759165262773590010400, 31),
  (-1638291834340902345352542235443, 31),
  (-1349130736077360572068505539514, 31),
  (529984818906909399392234421792, 31),
  (289161098263541773284036695929, 31),
  (-129475118625466465649568669819, 31),
  (-30210861012608841984899356291, 31),
  (15105430506304420992449678146, 31),
  (0, 1)]

/-- `bior3_0` (wavelets_coeffs.template.h L2779-2785). -/
def bior3_0 : List Lit := [
  (0, 1),
  (0, 1),
  (0, 1),
  (0, 1),
  (0, 1),
  (0, 1),
  (0, 1),
  (0, 1),
  (1767766952966368811002110905262, 31),
  (5303300858899106433006332715786, 31),
  (5303300858899106433006332715786, 31),
  (1767766952966368811002110905262, 31),
  (0, 1),
  (0, 1),
  (0, 1),
  (0, 1),
  (0, 1),
  (0, 1),
  (0, 1),
  (0, 1)]

/-- `bior3_1` (wavelets_coeffs.template.h L2788-2793). -/
def bior3_1 : List Lit := [
  (-3535533905932737622004221810524, 31),
  (10606601717798212866012665431573, 31),
  (10606601717798212866012665431573, 31),
  (-3535533905932737622004221810524, 31)]

/-- `bior3_3` (wavelets_coeffs.template.h L2795-2804). -/
def bior3_3 : List Lit := [
  (662912607362388304125791589473, 31),
  (-1988737822087164912377374768420, 31),
  (-1546796083845572709626847042104, 31),
  (9943689110435824561886873842099, 31),
  (9943689110435824561886873842099, 31),
  (-1546796083845572709626847042104, 31),
  (-1988737822087164912377374768420, 31),
  (662912607362388304125791589473, 31)]

/-- `bior3_5` (wavelets_coeffs.template.h L2806-2819). -/
def bior3_5 : List Lit := [
  (-138106793200497563359539914474, 31),
  (414320379601492690078619743421, 31),
  (524805814161890740766251675000, 31),
  (-2679271788089652729175074340788, 31),
  (-718155324642587329469607555263, 31),
  (9667475524034829435167794013152, 31),
  (9667475524034829435167794013152, 31),
  (-718155324642587329469607555263, 31),
  (-2679271788089652729175074340788, 31),
  (524805814161890740766251675000, 31),
  (414320379601492690078619743421, 31),
  (-138106793200497563359539914474, 31)]

/-- `bior3_7` (wavelets_coeffs.template.h L2821-2838). -/
def bior3_7 : List Lit := [
  (30210861012608841984899356291, 31),
  (-90632583037826525954698068873, 31),
  (-168317654213106405344439270765, 31),
  (746639850740189951912512662623, 31),
  (313329787073628846871956180962, 31),
  (-3011591259228349991008967259990, 31),
  (-264992409453454699696117210896, 31),
  (9516421218971785225243297231697, 31),
  (9516421218971785225243297231697, 31),
  (-264992409453454699696117210896, 31),
  (-3011591259228349991008967259990, 31),
  (313329787073628846871956180962, 31),
  (746639850740189951912512662623, 31),
  (-168317654213106405344439270765, 31),
  (-90632583037826525954698068873, 31),
  (30210861012608841984899356291, 31)]

/-- `bior3_9` (wavelets_coeffs.template.h L2841-2862). -/
def bior3_9 : List Lit := [
  (-6797443727836989446602355165, 31),
  (20392331183510968339807065496, 31),
  (50603192196119810324706421788, 31),
  (-206189126411055346546938106687, 31),
  (-141127879301758447558029850103, 31),
  (991347824942321571990197448581, 31),
  (123001362694193142367090236328, 31),
  (-3201919683607785695513833204624, 31),
  (20500227115698857061181706055, 31),
  (9421257006782067372990864259380, 31),
  (9421257006782067372990864259380, 31),
  (20500227115698857061181706055, 31),
  (-3201919683607785695513833204624, 31),
  (123001362694193142367090236328, 31),
  (991347824942321571990197448581, 31),
  (-141127879301758447558029850103, 31),
  (-206189126411055346546938106687, 31),
  (50603192196119810324706421788, 31),
  (20392331183510968339807065496, 31),
  (-6797443727836989446602355165, 31)]

/-- `bior4_0` (wavelets_coeffs.template.h L2865-2871). -/
def bior4_0 : List Lit := [
  (0, 1),
  (-64538882628697058, 18),
  (-40689417609164058, 18),
  (41809227322161724, 17),
  (7884856164055829, 16),
  (41809227322161724, 17),
  (-40689417609164058, 18),
  (-64538882628697058, 18),
  (0, 1),
  (0, 1)]

/-- `bior4_4` (wavelets_coeffs.template.h L2873-2879). -/
def bior4_4 : List Lit := [
  (3782845550726404, 17),
  (-23849465019556843, 18),
  (-11062440441843718, 17),
  (37740285561283066, 17),
  (85269867900889385, 17),
  (37740285561283066, 17),
  (-11062440441843718, 17),
  (-23849465019556843, 18),
  (3782845550726404, 17),
  (0, 1)]

/-- `bior5_0` (wavelets_coeffs.template.h L2881-2888). -/
def bior5_0 : List Lit := [
  (13456709459118716, 18),
  (-26949668801115071, 19),
  (-13670658466432914, 17),
  (-93504697400938863, 18),
  (47680326579848425, 17),
  (89950610974864842, 17),
  (47680326579848425, 17),
  (-93504697400938863, 18),
  (-13670658466432914, 17),
  (-26949668801115071, 19),
  (13456709459118716, 18),
  (0, 1)]

/-- `bior5_5` (wavelets_coeffs.template.h L2890-2897). -/
def bior5_5 : List Lit := [
  (0, 1),
  (3968708834740544, 17),
  (79481086372403219, 19),
  (-54463788468236907, 18),
  (34560528195603346, 17),
  (73666018142821055, 17),
  (34560528195603346, 17),
  (-54463788468236907, 18),
  (79481086372403219, 19),
  (3968708834740544, 17),
  (0, 1),
  (0, 1)]

/-- `bior6_0` (wavelets_coeffs.template.h L2899-2909). -/
def bior6_0 : List Lit := [
  (0, 1),
  (0, 1),
  (0, 1),
  (14426282505624435, 18),
  (14467504896790148, 18),
  (-78722001062628819, 18),
  (-40367979030339923, 18),
  (41784910915027457, 17),
  (75890772945365415, 17),
  (41784910915027457, 17),
  (-40367979030339923, 18),
  (-78722001062628819, 18),
  (14467504896790148, 18),
  (14426282505624435, 18),
  (0, 1),
  (0, 1),
  (0, 1),
  (0, 1)]

/-- `bior6_8` (wavelets_coeffs.template.h L2911-2921). -/
def bior6_8 : List Lit := [
  (19088317364812906, 19),
  (-19142861290887667, 19),
  (-16990639867602342, 18),
  (1193456527972926, 17),
  (4973290349094079, 17),
  (-77263173167204144, 18),
  (-9405920349573646, 17),
  (42079628460982682, 17),
  (82592299745840225, 17),
  (42079628460982682, 17),
  (-9405920349573646, 17),
  (-77263173167204144, 18),
  (4973290349094079, 17),
  (1193456527972926, 17),
  (-16990639867602342, 18),
  (-19142861290887667, 19),
  (19088317364812906, 19),
  (0, 1)]

/-- `dmey` (wavelets_coeffs.template.h L2925-2927). -/
def dmey : List Lit := [
  (-10099999569414229, 28),
  (8519459636796214, 24),
  (-1111944952595278, 23),
  (-10798819539621958, 24),
  (60669757413511352, 24),
  (-10866516536735883, 23),
  (82006806503864813, 24),
  (11783004497663934, 23),
  (-55063405652522782, 23),
  (11307947017916706, 22),
  (-14895492164971559, 22),
  (7367572885903746, 22),
  (32054419133447798, 22),
  (-16312699734552807, 21),
  (65543059305751491, 21),
  (-60115023435160925, 20),
  (-2704672124643725, 18),
  (22025341009110021, 19),
  (6045814097323304, 18),
  (-63877183184971563, 19),
  (-11061496392513451, 18),
  (15270015130934803, 18),
  (17423434103729693, 18),
  (-32130793990211758, 18),
  (-24348745906078023, 18),
  (63739024322801596, 18),
  (30655091960824263, 18),
  (-13284520043622938, 17),
  (-35087555656258346, 18),
  (44459300275757724, 17),
  (74458559231880628, 17),
  (44459300275757724, 17),
  (-35087555656258346, 18),
  (-13284520043622938, 17),
  (30655091960824263, 18),
  (63739024322801596, 18),
  (-24348745906078023, 18),
  (-32130793990211758, 18),
  (17423434103729693, 18),
  (15270015130934803, 18),
  (-11061496392513451, 18),
  (-63877183184971563, 19),
  (6045814097323304, 18),
  (22025341009110021, 19),
  (-2704672124643725, 18),
  (-60115023435160925, 20),
  (65543059305751491, 21),
  (-16312699734552807, 21),
  (32054419133447798, 22),
  (7367572885903746, 22),
  (-14895492164971559, 22),
  (11307947017916706, 22),
  (-55063405652522782, 23),
  (11783004497663934, 23),
  (82006806503864813, 24),
  (-10866516536735883, 23),
  (60669757413511352, 24),
  (-10798819539621958, 24),
  (-1111944952595278, 23),
  (8519459636796214, 24),
  (-10099999569414229, 28),
  (0, 1)]

/-- `sqrt2` (wavelets_coeffs.template.h L1698). -/
def sqrt2 : Lit := (14142135623730951454746218587388284504413604736328125, 52)

/-- `db` (wavelets_coeffs.template.h L2929-2968). -/
def db : List (List Lit) := [db1, db2, db3, db4, db5, db6, db7, db8, db9, db10, db11, db12, db13, db14, db15, db16, db17, db18, db19, db20, db21, db22, db23, db24, db25, db26, db27, db28, db29, db30, db31, db32, db33, db34, db35, db36, db37, db38]

/-- `sym` (wavelets_coeffs.template.h L2970-2990). -/
def sym : List (List Lit) := [sym2, sym3, sym4, sym5, sym6, sym7, sym8, sym9, sym10, sym11, sym12, sym13, sym14, sym15, sym16, sym17, sym18, sym19, sym20]

/-- `coif` (wavelets_coeffs.template.h L2992-3010). -/
def coif : List (List Lit) := [coif1, coif2, coif3, coif4, coif5, coif6, coif7, coif8, coif9, coif10, coif11, coif12, coif13, coif14, coif15, coif16, coif17]

/-- `bior1` (wavelets_coeffs.template.h L3012-3017). -/
def bior1 : List (List Lit) := [bior1_0, bior1_1, bior1_3, bior1_5]

/-- `bior2` (wavelets_coeffs.template.h L3019-3025). -/
def bior2 : List (List Lit) := [bior2_0, bior2_2, bior2_4, bior2_6, bior2_8]

/-- `bior3` (wavelets_coeffs.template.h L3027-3034). -/
def bior3 : List (List Lit) := [bior3_0, bior3_1, bior3_3, bior3_5, bior3_7, bior3_9]

/-- `bior4` (wavelets_coeffs.template.h L3036-3039). -/
def bior4 : List (List Lit) := [bior4_0, bior4_4]

/-- `bior5` (wavelets_coeffs.template.h L3041-3044). -/
def bior5 : List (List Lit) := [bior5_0, bior5_5]

/-- `bior6` (wavelets_coeffs.template.h L3046-3049). -/
def bior6 : List (List Lit) := [bior6_0, bior6_8]

/-- `bior` (wavelets_coeffs.template.h L3052). -/
def bior : List (List (List Lit)) := [bior1, bior2, bior3, bior4, bior5, bior6]

end Tables
end Pywt
