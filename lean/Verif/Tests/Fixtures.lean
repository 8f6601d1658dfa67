import Verif.Model.FontSet
import Verif.Model.Program
/-!
# The tests of the repository, run on the model

Generated by tools/fixtures.py from the fixtures and the tests in the repository.  This is a
check of how the code was read and of what was assumed about its dependencies.  It is not part of
any proof.
-/
namespace PS.Tests

/-- A file, as `std::fs::File` has it. -/
def file : Config := ⟨true, true, 2 ^ 63 - 1, fun _ n => n⟩

/-- Reading from memory. -/
def run (m : Rd α) (data : List UInt8) : Option α :=
  match m ⟨file, data⟩ 0 with
  | (.ok a, _) => some a
  | _ => none

/-- The literal of a real number. -/
def real (s : String) : F32 := (parseF32 s.toList).getD .nan

/-- A string of bytes as its length and its little-endian value. -/
def unpack : Nat → Nat → List UInt8
  | 0, _ => []
  | n + 1, x => UInt8.ofNat (x % 256) :: unpack n (x / 256)

/-! ## src/compact1/number.rs -/

example : run Number.read [0x8b] = some (.integer (0)) := by decide +kernel
example : run Number.read [0xef] = some (.integer (100)) := by decide +kernel
example : run Number.read [0x27] = some (.integer (-100)) := by decide +kernel
example : run Number.read [0xfa, 0x7c] = some (.integer (1000)) := by decide +kernel
example : run Number.read [0xfe, 0x7c] = some (.integer (-1000)) := by decide +kernel
example : run Number.read [0x1c, 0x27, 0x10] = some (.integer (10000)) := by decide +kernel
example : run Number.read [0x1c, 0xd8, 0xf0] = some (.integer (-10000)) := by decide +kernel
example : run Number.read [0x1d, 0x00, 0x01, 0x86, 0xa0] = some (.integer (100000)) := by decide +kernel
example : run Number.read [0x1d, 0xff, 0xfe, 0x79, 0x60] = some (.integer (-100000)) := by decide +kernel
example : run Number.read [0x1e, 0xe2, 0xa2, 0x5f, 0x0f] = some (.real (real "-2.25")) := by decide +kernel
example : run Number.read [0x1e, 0x0a, 0x14, 0x05, 0x41, 0xc3, 0xff, 0x0f] = some (.real (real "0.140541e-3")) := by decide +kernel

/-! ## src/compact1/offset.rs -/

example : run (do pure [← readOffset 1, ← readOffset 2, ← readOffset 3, ← readOffset 4]) [1, 2, 3, 4, 5, 6, 7, 8, 9, 10] =
    some [0x01, 0x0203, 0x040506, 0x0708090a] := by decide +kernel

/-! ## src/compact1/index/strings.rs -/

example : (getStandardString (UInt16.ofNat numberOfStandardStrings - 1)).isSome = true ∧
    getStandardString (UInt16.ofNat numberOfStandardStrings) = none := by decide +kernel

/-! ## src/type2/number.rs -/

/-- The test compares with 1.017, rounded to three digits. -/
example : run Type2.readNumber [0xff, 0x00, 0x01, 0x04, 0x5a] = some (real "1.016998291015625") := by decide +kernel

/-! ## tests/compact1.rs, source_serif -/

/-- The header and the names. -/
def serifHead : List UInt8 := [1, 0, 4, 2, 0, 1, 1, 1, 23, 83, 111, 117, 114, 99, 101, 83, 101, 114, 105, 102, 80, 114, 111, 45, 82, 101, 103, 117, 108, 97, 114]

example : run Header.read serifHead = some ⟨1, 0, 4, 2⟩ := by decide +kernel

example : (run (do let _ ← Header.read; Index.read) serifHead).map (fun names => names.data.map Utf8.lossy) =
    some ["SourceSerifPro-Regular"] := by decide +kernel

/-- Does the dictionary have these operations? -/
def agrees (data : List UInt8) (expected : List (Operator × List Number)) : Bool :=
  match run Operations.read data with
  | some o => expected.all fun (operator, operands) => o.map operator = some operands
  | none => false

/-- The top dictionary. -/
def serifTop : List UInt8 := [249, 89, 0, 249, 90, 1, 249, 91, 12, 0, 249, 92, 2, 249, 92, 3, 248, 24, 4, 251, 70, 251, 227, 28, 4, 114, 250, 42, 5, 28, 32, 148, 15, 28, 34, 213, 17, 204, 29, 0, 0, 131, 135, 18]

example : agrees serifTop [(.opVersion, [.integer 709]), (.opNotice, [.integer 710]), (.opCopyright, [.integer 711]), (.opFullName, [.integer 712]), (.opFamilyName, [.integer 712]), (.opWeight, [.integer 388]), (.opFontBBox, [.integer (-178), .integer (-335), .integer 1138, .integer 918]), (.opCharSet, [.integer 8340]), (.opCharStrings, [.integer 8917]), (.opPrivate, [.integer 65, .integer 33671])] = true := by
  decide +kernel

/-- The private dictionary. -/
def serifPrivate : List UInt8 := [119, 159, 248, 109, 157, 173, 154, 243, 154, 149, 159, 179, 159, 6, 251, 141, 149, 7, 119, 159, 248, 109, 157, 173, 154, 243, 154, 149, 159, 179, 159, 8, 251, 141, 149, 9, 30, 160, 55, 95, 12, 9, 139, 12, 11, 180, 10, 224, 11, 180, 154, 12, 12, 224, 149, 12, 13, 248, 6, 20, 248, 240, 21, 204, 19]

example : agrees serifPrivate [(.opBlueValues, [.integer (-20), .integer 20, .integer 473, .integer 18, .integer 34, .integer 15, .integer 104, .integer 15, .integer 10, .integer 20, .integer 40, .integer 20]), (.opOtherBlues, [.integer (-249), .integer 10]), (.opFamilyBlues, [.integer (-20), .integer 20, .integer 473, .integer 18, .integer 34, .integer 15, .integer 104, .integer 15, .integer 10, .integer 20, .integer 40, .integer 20]), (.opFamilyOtherBlues, [.integer (-249), .integer 10]), (.opBlueScale, [.real (real "0.0375")]), (.opBlueFuzz, [.integer 0]), (.opStdHW, [.integer 41]), (.opStdVW, [.integer 85]), (.opStemSnapH, [.integer 41, .integer 15]), (.opStemSnapV, [.integer 85, .integer 10]), (.opDefaultWidthX, [.integer 370]), (.opNominalWidthX, [.integer 604]), (.opSubrs, [.integer 65])] = true := by
  decide +kernel

/-! ## tests/type2.rs -/

/-- `while let Some(operation) = ok!(program.next())`, with the width afterwards. -/
def play (program : Type2.Program) : Nat → Option (List (Type2.Operator × List F32) × Option F32)
  | 0 => none
  | fuel + 1 =>
    match Type2.nextFuel 100 file program with
    | some (.ok none, program) => some ([], program.width)
    | some (.ok (some operation), program) => (play program fuel).map fun (l, w) => (operation :: l, w)
    | _ => none

/-- The local subroutines of Hirakatana. -/
def hiraLocal : List (List UInt8) := [(273, 121331135762349216882653512601380131718889268933204277476043055215135561410788891446219321139284653472726039391233209484542291834991323331083774866370012284741825186603848209121224736425786399740783554993373837338719340979292343459998687982060812200623697838329827261055746670445015312246409182354876923811621972840242583808266065642927833652290388982615216217983761574956621480831643526610575316046196384836407566534714425958557431373795211012921391088752435396081080623023066660788545897187022864944561593218188627271073705124264812771449001953840492164330282977583424594938527247630014739119070721467628980281336476116925597606853635449596323122110529791),
  (301, 3270791669653078818441931011810365670693438729639018083455505513638873017434838606533781627369404424485356063713673556390974331546465755734612644670725704348405223256869559099759228119447825014474768386185472474132505941999637140996468850416954829170638193925232606678571899999289122538376918354660399452440584452362562391216508687117884797114168977116632274218698527152412821261442047645413154791013808584544210545835837588541273111529682344924022878598062489869272881554361618345808086080836252547868492795440318089312706000444563235903618910994669210510716264176039266633674823882036166181559467974018916283338033128444962816722091682498546722756679831130196163022672784695077704927534333869612583876409054061965604815103),
  (351, 8447495833443359358881007635600874507579167068510597824899643706846984083764639494863547337607431171464754984742101571779816696861578834756631440374132760968329129896064969093554013385811493383751122079942759850313467839595241107953694275904924701098117426320192944390423220189315842408772843346221250398470758728937530830623212149302457165897869351687035129080313664124653815120525192175944426292672421303840147007171304789319851796319166713804614329924611716515570321749741140881222936597949945422060003637636940622431178547622913292442474285791802983074138848332313545282165071436227804700934938377269068262262351911271509376029672898402988427407324170849379260654929387598148251212747012066231042467852550969944398757646954359726648355294559865106043901143729097416362481926376154350106540804557320968764426489998334603993647068089804521727),
  (973, 71119203107124161391417495636866124424823319451367643440584637965166286648334576309369077657943436817482287787199569559387150874066894167382076919346591428149174235764165526015975027808165615447428252930840349314812622460610850228277070114101293212703809767153608743022000838697837957746832844028993045973020873911532193510919298858980058126554131518275562570489343254854667610386291322006776445222139184525174285678808203379968036641277955719822793691414609730608914743398852652200664306699479319474713905601538139327955402287373696024517637442469205497547407855313815473124362504764845545066523411294698316054673087795481639459120023273280800535116119351923182395572100164957511452776106003943586038654511021421259381939882172767100657838028671981764631432445685102511340933612631166983129321123343984662020630107550192738172189818132338547726633490436966793092409256851644451510935405115285248625535129339433959840711189405829084280542308820838723212062319802086103462308440272927143788047882704014262541059401938613053975183198753177963549399974290102373674990040688548184419349164085320895344913388970864682046515662012233508770967109020894407075554992549694629576247474260247076246482969858948229460260656123672645400929969404067552568342985257466026761227889487412007825040066380402641504366256727617051097426572860598221747909617449164629879989090899455172266287919010563475021701295577813185803632792626135449050242338418184298205536561493943820495492761057010595760951623647404968609018501223953631321017389048983247190642442991974245197165151559202356680258203852537654114323360494962917283485367889756539053888158646997382336393030593947647893305582364161882542845878083447102664343691092412376940249792507428286871931467936898878059151070070143730422199593757412636566466895985449568953755611802763941357854128518748003660653368079188378148304771475197313157810048633869117346403538104798203253723359956842026931402671827889883884602836246867953898569372586877709962031082996040413806353673855479845189220285215764330113966534256546225462996845854777068762968795761806202635165615224661854050521897639503199056433894340779819655026978769614952983557846759559644883084115279197218412223108789098357802451525681976636891360574751439486432674244368958712928821505947539601512328371670117170731483822267526777809400704195139964240127),
  (205, 2106579072652079116533029013970553454510012309954547456660423051988774609756913616769476747215220005781730794565363279796663601159285945251635927172319308551834166709042413580146085874378650188269675591894808347690687538861993072637641067711352559540680868282825966007727803556032999800371351549937750006449847334376463851003340979653948029139489463223735428531888107825598131210868792692975347717465909321418262497349319180357206100781576947030714948559796767604612125543117086738731006623743),
  (59, 525045157678204083961740030351979923412190480591137948547288488872565946453740511450702029613912991827126954165912442510270765473617947066367),
  (40, 91992597597909973757242311396074386174954157484364070035612007416192917836141869652215253368831),
  (1481, 17292222121783094553657557257039079361228234707479326205809404958504616549047666083176856682164238009997745500664797917059831592943937364669497244207375069153238058339896371580459074913750149324915909567339132393153314956368329584914223664168182117192022536979172226672034563764749199636120129112824840402803137022049820936144679488328730813466620763606009730459535862246148188452776386874720772191653152041953149727573960259446160290410595956685369970740732222690708593286742935616247128113993368950725975977325387007977244449942217461343016484489083957126274684976922593778199234800732117913680209295518146579090494595942797044113354045460740347253025564804079441216022661855953163146454721377524786606504589044100582412142882476536741792905967722751180778704560429665827275816036760791769797821960448338968020965876288923285935507220491012328353576708151625090246020255410580577670651010202832797081827524950375939970465752274032939133366078433586751875172404233402683023187948514655507209060134758072437571238347602543808181953347640786805385689327926048187046894840696044987776325508680562966226799238351750348352481771229736279054619128039141883640638460942399746843030059459736884163696357731310327924173639101835649790212282088023969109534286765331710464238240109067998411592642122464936730779877809875135224370950475847459889606274106982790041889805954418553340754108474154046035302970645464791682251126038428096130764994573602763826987229264721356176170915788644116245573073999139238849970477333192442240866628441238774395424429084512554258944935198375258699357509834433941940574940433849851377735964384259078593491949121318942319705751884132172234265442537709723135857053469610611658978671431375119563959496169491730538744151241573225237180979620297547297176978405739448765408886730396772238453706949191597090439080911578569132441467918608834100727287705119479587953899656595900856681549704293216218952933244158664165597232832452688667109989376357859927318361043507315929383677042623442369779037694971767651862338373925185731446476707206952089221973816757438035789920114051099743018550945897498388367609998865134088589132920990657165058538391385266420878616692303596332464763873820428016181608129105666621526314396446561700434671857014764525074039948087188567936805381462167477033388634869365824109380535522126814446930664722246463607033676909290897135848308186323443838746246808018374187495606994192216438088565288947023621799485758482401021736587061282022698119188637370025587695159270074163687915918935060353774128352148573853125210194159313795372011481418684395028091081476553893363350934173648793437455630125976287131829811989481077317730443073745526455989764941460274280553714920753659408312233291338033585637890629695268300373031222512442158174001800210443908194576086707996775380381727986433080005510651642168008584731834367977947197091849050484019630993095356479460737867299780080849997056496851300941176971696931962912811610546715855182410879050684875296494680478915345011727295300406549403625896440822461429109427120463830287557430477883292424623486806138333175759877017910425725470624496058309822553742640873454754261781283837344459086264447959498037068553534054132219656442215349487751615463983848882946980765064271042551884681263548842959740097667414416974338965071282559965007209658791741002110067629021384956550721763165883375694012243475283077257668254757660848393346226591460233531817120440195813891266801199354517927012476374143521212801008621183682523331207215048014662178653767916192744252952838706643814776689567901563927631116108031),
  (973, 71119203107124149938690514278634266424807339206621398935068562125027118353736366820909602689190496485329734013750126062127816088780877826460738243505124810641716369391258631002729444307689344616457632694786141309113413713742440135879524930700088789763519251465509724125868793307160446041522060248432350517922994687014151902209804062900669052336525623171618228242230299731759377596320518422065981848268875115577488564003979381187226346129457915458989067824915527762293786109679721480749405918963544748337886795289080732408301949449483749277472564857451152069139989253472214747659662861023651030761783147865389510953471285998413373046955968926080567880022991558885187960293155856541375962455834213047461400095497514473154836072478960776373386111348965449444987522512364534729933304118672855646607562907788596355323540591601315734081578204476696156334312171435594431823445617662060797423643722479423964901468561573028658488738320964466735123835918628635999741988124794799869725774396462576447851947859630163872813646991700213655640349122374404123147249432904990909177153025303013236448476198965532202052858712812302216429678572354196739984289683848773365341731223718616282272722188327538467757091792540433491427398315796673224514449107362873730671427172739481655530418757054294834731323942559974952828204506378049139950440891384671554195733383671233319379435020623603682524515284518185409918173863487817117488494674400813432339476701266641355073429308256521263013544804293649114633590959334721449094445136467991614127170509192292539601781335792530637530715786810900571093954179485722902576200012748858768690384401730516580283982275793995324071469252061197999920429697563480508153108835630625969337535347552806147671134516161843673047007479757862477368508402032488804739693526358307017494324082446063736947809396974804418971153699695973433684051298053461053216378124882884397960983111873942220900897445764196255953976486458041133907968720199485737308563965563732208199948483790804942696987663843741243319935625783595475629995296694422630539110662968993809990922244589480282592680187697522722348981005914552777924264491160304177816620159846552068430093466785352261841051640784208508529933146119435876926681573119586303197917555027814294664033292559880678815921192013389062251112408056376903202735593190379575207002272275001713487654485536825933823),
  (205, 2106579072652079118145628668035752908879971076368098382050591897073564795643346015333280820316605432934212378806632917436925657149165857801043066846303504405659742309231869473923725687633312186422903548197006668510680030877934179651007597911994746547716074903701137860086051192639992941345594893417990613750285251144814369345897359972687269865822097230715157734575087036000683789530918909251885669988205319473687802535374282455879937232652046158136076065484898660324451006422384586069354021119),
  (92, 15578974128647596464851158467120856380771231566195645792722001758935651613507657872092364084446541545437057712255252125005134768041968163981092499922403706808649367969455219710091910581144880714881548777057214010902839551),
  (213, 38862962634705349434948528386987924288514819986652428026922855752985700239828221880478099072813669593348584680214156248903390500306971043615288331000270592470886301157021620284829159626630282117430489711338666819459200683062636739634166070139760710709701603691674914951878291145754568578022173310328124257674917541107093350323432405358265015473912039880154513479331998214847261917166777736608424145960293377411054808452492463471263443237937337632892658894500652396251794375414666262615969809432950673899882217727),
  (250, 4947392956413179484954160621227208832792752235639663942870562379664791737831109695961667475679926310167312853217056506711494632968658427950183917058532386082459618803794589720468112697544598726947551182669416204239039793541477231417415654970489121831168991592457890878083337610908210962652620884708889904859547742900804683953743138014227597069590677392100031827938250836279752564672401260536295949171346813941538929355710133671164087110712332912015740013761992149977881601706858907432282072054389327136130548856361031118655813592534090388287632043452952775456619297501659045089289751385976277934079999)].map fun (n, x) => unpack n x

/-- The glyph with number 10. -/
def hiraGlyph : List UInt8 := [117, 248, 8, 255, 0, 57, 239, 0, 1, 181, 255, 1, 145, 13, 64, 21, 37, 10, 14]

example : (play (Type2.Program.new hiraGlyph [] hiraLocal) 100).map Prod.fst = some
    [(.opHStem, [F32.ofInt 372, real "57.933594"]),
    (.opRMoveTo, [F32.ofInt 42, real "401.05176"]),
    (.opVLineTo, [real "-29.051758", real "186.59766"]),
    (.opRLineTo, [real "186.59668", F32.ofInt 0, real "-0.18261719", real "28.88086", real "-0.18261719", real "28.88086", real "-186.41504", real "0.171875", real "-186.41406", real "0.17089844"])] := by
  decide +kernel

/-- The global subroutines of SourceSerifPro. -/
def serifGlobal : List (List UInt8) := [(76, 46071321498853041030908125409956961715493973843273406670770905861091770488024581930986127577710112856213375089625520753955688018834494493790979745852943872226391988490468000150533111),
  (36, 21433723681676512797126819359802222523714565711479657967359942024240638942795692418001),
  (53, 1882526791800939111253949029945166500908018755228130094897747750546849483762468661295024518966942357466136607399917522695358311),
  (32, 6350615572783168204850942325387386556394303022981419095269710527752684833379),
  (58, 2069335355418917194411038850841487959409545882016086454057594053568442430852130916821560129901107654060127351144006572431386191128625194743),
  (39, 344211440075691997623739344189843883556039374641693493563196747556978759068578076838629544725),
  (103, 6171852235810789194313961868162963684735239877120261741030553270713627412967654645091868420745569075765672513399978206037076531160358975586972301906860335166418832028337949300629584617152431978148292837165196820291631169645089316410944747357441557),
  (67, 12320902410494992901964797952653099619688051282660951280327676320814026521739373537500731109568671390683765511242298194640281105563415468618392096966291686226709),
  (20, 58447820500331422637193340847192036290759690810),
  (92, 19798816914741584409170466003544593095822243065440275559136101968610733500094260712567884817516126647334924546962853427469132469739207466800254886410892057664520829472655670947172349369850325547817184103278363205214927637),
  (69, 634117996788241233584453060347519768173831374997219102070868365926028230710276234442953669239340876664511862792457087331802169194018634809741930974431067391203231509),
  (33, 1624574610290000276070706498844284661633929741414693255532740507611308035434747),
  (23, 1057396602148600792853799691785979832455449096533720714),
  (58, 2627820752989991914515095454693957209848646818189060267823439544551448705909219494281572951480497714440614201522158145094975650596225878627),
  (75, 228919010003980679755011636453672677661218221063215019974069204989670561613759906283165054471432092307793345265224042111443850362309506666976461006740171852745694577938939866052373),
  (31, 19653867324521664129522185506846592985482609487561543611590980554573392405),
  (73, 3470657703297641829189313230080118877398404709765424551260899102819460492579515234755712558497123846975102389274826347419382613625255448488992307724768945582087607757147554069),
  (72, 13558820000118577151879100610348440242674836274225360160015399936504402815493255430435235495171291452728107528137067162752844565568250113735699744782693969827366843108931319),
  (30, 80925092540375010583274735196312748972797908354415435783414964375684284),
  (63, 2870947727230612162192275672055952500651118356429292554378269210227400059064495386004643316502134584442921508541239447520495204963186863709357649518357),
  (62, 11215271931687286136425755827403309148452282931762299718042659597681192437123245707001144066541345717963797228034883279215437075816462475092749736981),
  (4, 185218176),
  (26, 17868888682700570700203241654262226949274473926077362493126541),
  (153, 15937332747411513058837341602599490983724823783084742185022268743441646310568962187144927791153497591956169722896795802846163712534760303063748620275381197338306361449137221269840643539064864665717550843964484193029571579914003780389189111844406384046020478844287599730396781509538962095564647181441260844501515477197283111937533766790904221157624535479235589300589051),
  (152, 62254875019124215870374430000108769546418482789026935631273102288436436539320128913350943297762985340805257025600942776751083534158216397284950932872999944012899533457994132496729204715537485243296382505234494705018862277243028852927085699296661620099823432070094353535887418967419426101669792823979916987548614415263701629547089544465351676270722002773325052207893),
  (52, 7403261621404176488649108151135658670930797439113943568767458913282548321654567245188135346325451186681182650287521463556629),
  (21, 16112467334563595515091746525529878347191254773525),
  (12, 4345161261323500881316656149),
  (18, 969022389466884386403127949109422820403891),
  (22, 4276385083046869333367638310868573275161435363079415),
  (3, 920115),
  (21, 16256031472767348083171543350688336642017316566836),
  (33, 1278516465803042344998399660033250359720032913980029944303913961887528228980215),
  (5, 47736556108),
  (8, 794796810515711357),
  (65, 188112781683949093707144670755357663211720429573657939619489477697908521234134864147742774514456490668521865180619959974199939745405083404839743574338432277),
  (59, 672745091454674832413465163128043786160341343058772662308455394202014318733995226825998704152619090525390431926716872749200287167757459642901),
  (39, 460305291114564064748028220296065175985998083944630148859487937461771105019145419766161111829),
  (19, 245747496327137855001749240488197589697032469),
  (55, 123358698176453298071960976954974457185233165477447286642719096333579142933833489280373361827307249261149550562480718381232939426734),
  (54, 481763891136370787899439772319644128190736980325044060910305423969376797662591553326182148583028545614418467710198762406107615227),
  (5, 47735521566),
  (34, 418033074852261297271061717331639038131591021617358354917770827122606347755140373),
  (34, 418111593216814478861000958241725183875176452611519959134085457467198828647211541),
  (33, 1624687143277276530508376571232957930756860369204505812296336796380049541953301),
  (25, 69792252519419385155542238198926675460272261180363340748156),
  (36, 27431677412687579166637282028174954603227888145321792307663848178903491681129592059809),
  (6, 12224408663179),
  (89, 1188326950706645228669959777251469728541561844320785945591662327718279329396569744902660623664665563809795981115332931160235555411191891783376962780985206505894976319942922316903651752997465386571399719443062854421),
  (86, 70829571636078697875061263584752303170285792307109560454603323612381229775173368422484288030808807625501239792584621541931729101076450031450986406040338902876993967120997300126693826943291468517472498266901),
  (10, 52438891052108381264198),
  (23, 1064981111988789663413187921888961386318352969635313344),
  (13, 873208507801931824228674809335),
  (29, 299892147619712481648785808586816439237508009836478365683670546406208),
  (18, 969019756931971372596301801235404313503921),
  (18, 960399844786874294940084505510135095752469),
  (6, 12096789151743),
  (27, 4555618650160968976281922732743678179574813468560655775104169900),
  (11, 13552036657291397585087765),
  (11, 13443447704685369389729848),
  (68, 3156149718196089155751363413633450680359766322028325568445838576544916820825254480172907702731760737206508746456855168748049578633908667046300880694561419562522077),
  (66, 48159022595036028255694510780619306111018766759770343718481291182344977479640827482821668857443576000156986544725271990811564176283052644528966198284869113309),
  (17, 4030321808737706870217023915251677794295),
  (24, 281168298127098364851578703429531731123415183992117525301),
  (43, 1963990067114464981257467538685063028880872845176262528206991288207133015258445824972479099607518907362),
  (22, 5249280131098589472250084923050443890585439720391957),
  (23, 1064819377057938460108969954963052264258260335395497536),
  (22, 4156369464765157075574549964114543207860710012057689),
  (57, 10262585647448356347758245390240820507409700133772968186040343091674545925699829486364115884443655824972015247120068951164385590098894276),
  (17, 3785005529283105914473165824408343899815),
  (7, 3209498017340808),
  (7, 3104345184515077),
  (30, 76739341821331200248447939705916877234312551864177608582523868201645931),
  (52, 9268410651378808231212563291656166823081147194093352903806341746199611069992362036922271491902923769635495048613699574567701),
  (25, 88006812013868748013521234146288737703177191839799029425404),
  (10, 54153405175380711294715),
  (13, 895639815141397170107492530091),
  (16, 15585347684301589403087590024232010170),
  (19, 248074490443064083310134585166142462450647300),
  (48, 2170553540540935474507539806663055766345145756358754999758910415766465504012976195728998323475202785331740719512341),
  (48, 2170553503844358311934430787535130613148549940579781070595617141935286993492506344027845304543715727704633640285973),
  (6, 12118634470772),
  (12, 3622407942760683594492614647),
  (8, 794470801255823236),
  (9, 203651561250696376315),
  (7, 3130170250791906),
  (6, 12515704768098),
  (17, 3752561054691753186566279589103357130662),
  (17, 3784902613493154796140300903286828854182),
  (17, 3783624175965047356722415763452436789915),
  (44, 398629442653422311472208966591871484565810830984531615770219391720870658859514769738506217630664640282518),
  (7, 3103663712369569),
  (14, 237570943507786271333727248260493),
  (25, 69769753872019574615608814986813013443759873664851438294009),
  (39, 460328082831157750780270487573232508987915321080990227775301634171105452520517581247724432149),
  (40, 92803203692339909819459805043307724611514158963803356796707877224358448241386357026847058488201),
  (39, 359614285793835458181271001846882588534273988701667867499504223979247274184195683294329018361),
  (15, 57540547388950888175477628371924945),
  (5, 47420475948),
  (14, 223185888767157194083202510029055),
  (14, 237555796138808068727063991494907),
  (14, 230234259510983167674891868043180),
  (19, 248044615708232650839959729868628501754904767),
  (11, 13442925347908333724540861),
  (7, 3129577485797974),
  (15, 61488903498796794520815847813876268),
  (13, 930110384047928629721139350358),
  (9, 203440538642812241762),
  (30, 97472702523133950972166869371841756536663768966619815826695113767956459),
  (4, 186462725),
  (9, 203670541288510688053),
  (7, 3299857611127892),
  (12, 3430341045649870326547192455),
  (5, 47368897886),
  (4, 193612426),
  (27, 4865977679410226171372208338556712908220136383310756597119429765),
  (25, 88642692433111149378381975397844540312662411930108113779477),
  (11, 14375250154997160248757982),
  (4, 190979492),
  (8, 800200242642356881),
  (4, 184617587),
  (26, 17717733156673256402769526218577301999996180696224031995110657),
  (24, 343769906354530537193045693410545518116388776797921466104),
  (25, 70273254950949383167011530809664941711114687781696701462456),
  (23, 1352583068749881834259756709906253306772891265304633365),
  (24, 270340676853804903412876499084242481122372027376461194497),
  (13, 874780106868677605212083463454),
  (12, 3417319098022845477462690299),
  (21, 20497796660036212132449218580361791291766055855351),
  (21, 20498064094769962987762125636774069504465947834619),
  (22, 4125408254299497175934896803508182951448534078121576),
  (5, 47416738809),
  (4, 186494004),
  (10, 52443445952051029330168),
  (10, 55447451590654942936281),
  (21, 16119269026123372312100287272641801143869308270595),
  (3, 924988),
  (8, 837417294149819547),
  (17, 4774166546471211567871492379623677384967),
  (9, 204263168994381526968),
  (5, 47420742991),
  (9, 203920462155314457847),
  (7, 3341772183091218),
  (7, 3125639926956170),
  (18, 968661176592763656539237742935693364911879),
  (11, 14335942621302107741634299),
  (5, 47740771591),
  (17, 3785172294904364465698921248894546835327),
  (9, 212792191227280401337),
  (10, 54150631083690807437942),
  (10, 55563680784296782496763),
  (10, 55530950674610068237307),
  (8, 852948191058701330),
  (8, 847525140467220945),
  (7, 3104982215100407),
  (15, 57227506070688643183329104031854087),
  (8, 1010571018957551637),
  (5, 60218734485),
  (14, 223693283200239561309582665421184),
  (9, 208412541174004007871),
  (9, 204244898959012102903),
  (6, 12562871769863),
  (6, 12100499390968),
  (5, 47330424718),
  (13, 871664766298531032453413476087),
  (13, 926587256742475317737899274693),
  (7, 3104275357811733),
  (7, 3309902589393071),
  (7, 3098118236715132),
  (12, 3413751614454446351298398050),
  (12, 3426947619995537964473908011),
  (12, 3615569617697402188333917947),
  (12, 3410724315900933308617027334),
  (8, 826210393386632955),
  (6, 12109357819905),
  (6, 12704002334983),
  (6, 12133131817975),
  (11, 14272007665132645127427831),
  (11, 13413468773922754143482645),
  (11, 14160687935902881852979071),
  (11, 14075959920402908410189303)].map fun (n, x) => unpack n x

/-- The local subroutines of SourceSerifPro. -/
def serifLocal : List (List UInt8) := [(66, 48476404205806470315981686577879732127270776249018929606284708216838744824403337201842790966990251672428794644987679564201789606847172086305936157336915020023),
  (73, 2750761885335516995953763583356972670696852369468923267097916070096331495356176781701989642507491285130262804917803207013962394107798210011648888073671929527145086530421731575),
  (5, 47414708066),
  (6, 12118253308454),
  (48, 1712046000143263751853540188712219757471901285919003285049605465636847171642263140213165727176830745954897376315049),
  (105, 404383438028531758490223360380612775694448474763700372575712006483897995259419455184324473935105347282820363643603327459167397149842901601521821048432203883414352201895773270037469322717749594920329932209996233558079157004330984000258077827902942025128),
  (7, 3108066091993650),
  (77, 12454463332878160970951343656052600084227430897139977449054930840988432117343328755014213560560509165163105742129871901863082200539591082040300580142364007882967135279847461331740803861),
  (10, 138109625317536992266818),
  (48, 1711854507584555468653086681686911348362002412555019997748522381969601435365342356486508072229890822135507694450453),
  (32, 4990609178144933316274858667248814970776466161282942246237683257898769600866),
  (37, 5530524531086352103620695020590112066098033569621306390182423728826429775147659588598645),
  (6, 12096778404095),
  (48, 1711886305411913804307682146983105513001085794096403243235012320673123479871067784034945148590893604783543681212133),
  (23, 1055628920655743601021849849494844974210690004780364053),
  (39, 362521615760446927770945113443445079257504386527569044605004527638350753386831719708870735125),
  (73, 3492989087337221812594583637055340952481506211341116422269734752324026006778900056810960937125001529328736459416806629021303678743351753172536178196981814396849463575196989205),
  (26, 17710662202790165572553694573698922532478291006364892687314169),
  (4, 186463719),
  (29, 299883605068633352639343773538748576942195340854625492818516131813560),
  (4, 185219077),
  (18, 967194710748735203041535567103972312061308),
  (54, 492626282799167661172595903308023561798606188669954614003445079662967151586034499928527969000708264705508041468700829093638765431),
  (32, 4988431127497057894973937044249922752846483718808017406114140339920275700590),
  (7, 3125040577721741),
  (32, 4988637258340975577845031781731073210866520845778007290507654094885047827963),
  (23, 1064951549985637797204471816699560759057264749614686741),
  (7, 3128613221960393),
  (21, 20636046460285162447919292901092597777579039945558),
  (27, 4525943012385003289674449881822823650292842581410009869007944822),
  (4, 185216139),
  (21, 16250301567581485902554469310128767500854107024063),
  (7, 3107412411681342),
  (18, 958405675875290909589504629517952206481849),
  (20, 62941365900395033659099366547638353064539491349),
  (65, 188112781683949093707144670755357663211720429578355024785037144153687482427713538202494139612273142964139920820049180357813839455034979038886209220336413973),
  (41, 23760067537079049228761800911851265301945643138898805084488214030790115710432025799653217780725241),
  (17, 3782328656795990734199910442446508146307),
  (85, 276733678530964197235190517398866514162067524269874220294003732275851144015897410777963477595343568065120213233371749641526511092580587295933678991919558253827330012855145710720148743996637801335643343861),
  (13, 873888410433861469503091348349),
  (50, 103812600350118061904335719965843868090909052218874723679548436676039529171460895594479863614446820100857394657261722987),
  (50, 142418305796747281037983014048390817259046085609255201281085301443373294525809238232525446806500188898886685178602432277),
  (3, 920140),
  (22, 4123289842311305573226053317422721711210986090165013),
  (11, 13334477766133160834309453),
  (36, 27255437779461947000299997162730898404355137724973418515630848929054730900962608095227),
  (21, 16105976941652592017732837106572544658043022200824),
  (13, 1118985013995775925522635854684),
  (31, 24783635264328849021486292077201493497835309066191806916177399472735520293),
  (20, 63500561222893085045968608826856555348039690541),
  (8, 800876960135918367),
  (4, 186465301),
  (71, 53296967810321508072243211780028130047529730130490825472520221760604502777807313485719951486253623125920148828502834409538066696093414951110504873733708486267860221659413),
  (8, 800876955838864903),
  (18, 960028229072002785208959534560003644420211),
  (18, 969018427724257997279376720169989875083696),
  (58, 2609848203871131716411887956298899436596895906419006285596045248051599261175687917493479515959958952905721947691107610285040604341331231223),
  (21, 16107619103015837517716334880209675731465931585301),
  (12, 3404941083649393785137331986),
  (71, 53297428509638599618836967275844214428087860004532834509647727928882845474159594250096807433386651901521947456945357873470864526815732157319037119459605625679506027903765),
  (24, 346196734992907776845071721103000405039465354890455852309),
  (18, 1230342013847225505624168703726181962391974),
  (22, 5278455720556177186151541051215917936724377116987896),
  (24, 287212872996888942421130153070354164830268504931855675988),
  (22, 5249337219438732489077702371264912272557122468133141),
  (23, 1055633328527479092675368146360297361909487344949734393),
  (23, 1064981100526293742330344163828842839940321128175677125),
  (7, 3248361198586421),
  (57, 10264409744509213755975605253977951275770397731549077890353331058844891394383274284444807951236991020562063104462882776322084825502087163),
  (13, 1110926514894592069109571921144),
  (10, 54144218228266920217543),
  (56, 40088890599795645419580643907453153194929632030093823859571500315675178018921289194480815761414043167588580202407285999124152659178105),
  (52, 9268410651381213138817323696881525651212259475209385602844263652415817895131725085861390985316393914430868473768642447414037),
  (24, 343778845797041489977427696244184510993736644236911579925),
  (13, 943333416354322995333121051238),
  (5, 47419915309),
  (19, 248034314064593885007934821740742044472069397),
  (19, 248078315420947229593736409450737492001029081),
  (9, 216256090732457983020),
  (38, 1797567890699153656879849331168437639944122730820201419758435013765056989173849349311538453),
  (26, 17867295254736198023562153718026949842598283853750877552998523),
  (18, 969113464492305132206139086070011800385452),
  (8, 844764643612555212),
  (6, 12910335671676),
  (45, 129401947230370251031106990071684867375127391678172513110637088155055562440384758938385643886075009838085653),
  (44, 506025679573775361394642648347828217920996732198616657764799214450719249087172280307225617589898202297365),
  (7, 3298616985651822),
  (17, 3785005529362330478710910080539591601573),
  (17, 3752462487806278959052586287384163646317),
  (9, 217711823570459974602),
  (43, 1667349744463042333113657665181581122709435017018279484216621137481210483922013466529336761679971243271),
  (5, 51172538130),
  (16, 15156425864237271428276023304180719199),
  (41, 23760653067499369211472956930692990066059944281153342759930969135020494723192613752596186432666361),
  (22, 4156369531057630595727660156522636145493243897085022),
  (4, 184909871),
  (37, 7022129360084993638963129372655157058815131982175194519594376988123407362447359422517245),
  (9, 203306748060021160981),
  (36, 21601510837707329842089700719279869597602537169510499443111494501576255245067374538517),
  (14, 223975234691153516930238765529004),
  (14, 229600434234443990765648172218294),
  (14, 224532767501565492302774606037247),
  (19, 248043952345741198432497249717220115070543637),
  (4, 185240853),
  (18, 959523437010705016776599145822292553535995),
  (13, 880941479376225327825790003550),
  (9, 207451382238959849723),
  (8, 826271800218922891),
  (9, 258817826544054252078),
  (10, 52077173628817065557386),
  (7, 3274833838973605),
  (5, 60218079122),
  (5, 48083068408),
  (4, 193529238),
  (27, 4576116315432710549629312406850782164308336809969175399511299832),
  (25, 70175569693622117672781175912182305531325873787925696320381),
  (6, 12118281489064),
  (11, 13784423670552173675677082),
  (11, 13442943939330545446461625),
  (7, 3102296754319109),
  (26, 18366621819877732680672523602852991011712146476256515614373813),
  (26, 18373212347724622087479611159318949827681776628727980191123367),
  (24, 346193749145062796244799747785325346791461688339757964821),
  (25, 70346814736910945832212731466968160178705846103449038485432),
  (20, 62969747098166552763830185111951358977429766407),
  (22, 5245563265291893320189499085302732072394632124004345),
  (7, 3104308043318882),
  (21, 20497796660036212128091669642077252724120215839991),
  (21, 20498733116144948651351104202072536643441683620091),
  (21, 20498064094769962983404576698489530936820107819259),
  (12, 3440008405796336396462716858),
  (10, 52001513360961273001729),
  (6, 12103079042456),
  (10, 52738593671262106625015),
  (21, 16119893446643326616194827238978373075729668172035),
  (3, 925104),
  (7, 3128734173039311),
  (4, 185249543),
  (17, 4774170886827638595872050105833786857479),
  (9, 203318157510362632695),
  (9, 203704289248361433336),
  (7, 3125610029956490),
  (6, 12140013356980),
  (6, 12125799713428),
  (18, 969018427744381331583257780687058017626801),
  (9, 203437160943140543889),
  (8, 795670037496202624),
  (9, 203131192255254799602),
  (16, 15650019990589577052261535910662501883),
  (10, 52054476589796035790690),
  (10, 52067878254037964238329),
  (10, 52070760559070791712761),
  (8, 794525776837277571),
  (7, 3106081759677953),
  (15, 60147302487497080285493725203789594),
  (15, 57190921212139532866360408275310839),
  (8, 1010380551799450615),
  (5, 51003324178),
  (14, 235780230988051386305120735000519),
  (9, 211558567021865533864),
  (9, 204261994753585643775),
  (6, 13102367632056),
  (6, 12128851396599),
  (5, 49610588391),
  (13, 877225011484966699812839335159),
  (4, 186470196),
  (7, 3226558403876343),
  (7, 3129947361482413),
  (7, 3102156143695228),
  (6, 12221718398900),
  (12, 3441380553087422054855103514),
  (12, 3408995927893369614979802875),
  (12, 3410663687506293397034956551),
  (8, 844741558551709947),
  (6, 12096780828927),
  (6, 12728087541647),
  (5, 51154843410),
  (11, 13323086791504648313632678),
  (11, 14160687936184352534722687),
  (11, 13879138189309903814046886)].map fun (n, x) => unpack n x

/-- The glyph with number 134. -/
def serifGlyph : List UInt8 := [110, 10, 221, 202, 159, 201, 18, 184, 228, 81, 175, 247, 104, 223, 101, 175, 19, 171, 0, 247, 4, 248, 221, 21, 135, 29, 19, 186, 128, 110, 168, 165, 124, 170, 27, 83, 29, 19, 171, 0, 101, 29, 247, 138, 252, 115, 21, 19, 173, 0, 42, 10, 19, 109, 0, 32, 29, 19, 173, 0, 91, 29, 19, 107, 0, 79, 10]

example : serifGlobal.length = 181 ∧ serifLocal.length = 180 := by decide +kernel

example : play (Type2.Program.new serifGlyph serifGlobal serifLocal) 100 = some
    ([(.opHStemHM, [F32.ofInt (-15), F32.ofInt 66, F32.ofInt (-61), F32.ofInt 52, F32.ofInt 403, F32.ofInt 46, F32.ofInt 82, F32.ofInt 63, F32.ofInt 20, F32.ofInt 62]),
    (.opHintMask, []),
    (.opRMoveTo, [F32.ofInt 112, F32.ofInt 585]),
    (.opVHCurveTo, [F32.ofInt 50, F32.ofInt 20, F32.ofInt 21, F32.ofInt 28, F32.ofInt 21, F32.ofInt 16, F32.ofInt (-13), F32.ofInt (-26), F32.ofInt 27]),
    (.opHintMask, []),
    (.opHHCurveTo, [F32.ofInt (-29), F32.ofInt 29, F32.ofInt 26, F32.ofInt (-15), F32.ofInt 31]),
    (.opHVCurveTo, [F32.ofInt 53, F32.ofInt 43, F32.ofInt 42, F32.ofInt 68, F32.ofInt 10, F32.ofInt (-1), F32.ofInt 7, F32.ofInt (-1), F32.ofInt 7]),
    (.opHLineTo, [F32.ofInt (-34)]),
    (.opVHCurveTo, [F32.ofInt (-51), F32.ofInt (-21), F32.ofInt (-20), F32.ofInt (-26), F32.ofInt (-21), F32.ofInt (-18), F32.ofInt 13, F32.ofInt 26, F32.ofInt (-26)]),
    (.opHintMask, []),
    (.opHHCurveTo, [F32.ofInt 28, F32.ofInt (-29), F32.ofInt (-26), F32.ofInt 15, F32.ofInt (-31)]),
    (.opHVCurveTo, [F32.ofInt (-53), F32.ofInt (-43), F32.ofInt (-42), F32.ofInt (-68), F32.ofInt (-7), F32.ofInt 1, F32.ofInt (-10), F32.ofInt 1, F32.ofInt (-6)]),
    (.opRMoveTo, [F32.ofInt 246, F32.ofInt (-479)]),
    (.opHintMask, []),
    (.opHHCurveTo, [F32.ofInt (-41), F32.ofInt (-58), F32.ofInt (-19), F32.ofInt (-14), F32.ofInt (-33)]),
    (.opHVCurveTo, [F32.ofInt (-24), F32.ofInt (-21), F32.ofInt 7, F32.ofInt 16, F32.ofInt (-15)]),
    (.opVVCurveTo, [F32.ofInt (-12), F32.ofInt 12, F32.ofInt (-8), F32.ofInt 15, F32.ofInt 26]),
    (.opVHCurveTo, [F32.ofInt 30, F32.ofInt 11, F32.ofInt 39, F32.ofInt 87, F32.ofInt 34]),
    (.opRRCurveTo, [F32.ofInt 21, F32.ofInt 8, F32.ofInt 36, F32.ofInt 12, F32.ofInt 35, F32.ofInt 10]),
    (.opHintMask, []),
    (.opRMoveTo, [F32.ofInt 159, F32.ofInt (-196)]),
    (.opRLineTo, [F32.ofInt (-5), F32.ofInt (-5)]),
    (.opHHCurveTo, [F32.ofInt (-8), F32.ofInt (-8), F32.ofInt (-13), F32.ofInt (-9), F32.ofInt (-16)]),
    (.opHVCurveTo, [F32.ofInt (-22), F32.ofInt (-11), F32.ofInt 18, F32.ofInt 41]),
    (.opVLineTo, [F32.ofInt 216]),
    (.opVHCurveTo, [F32.ofInt 126, F32.ofInt (-50), F32.ofInt 48, F32.ofInt (-105), F32.ofInt (-102), F32.ofInt (-74), F32.ofInt (-50), F32.ofInt (-76), F32.ofInt (-19)]),
    (.opHHCurveTo, [F32.ofInt (-26), F32.ofInt 3, F32.ofInt 16, F32.ofInt (-17), F32.ofInt 28]),
    (.opHVCurveTo, [F32.ofInt 27, F32.ofInt 18, F32.ofInt 17, F32.ofInt 31, F32.ofInt 9]),
    (.opRLineTo, [F32.ofInt 20, F32.ofInt 69]),
    (.opHHCurveTo, [F32.ofInt 5, F32.ofInt 20, F32.ofInt 17, F32.ofInt 1, F32.ofInt 14]),
    (.opHVCurveTo, [F32.ofInt 66, F32.ofInt 28, F32.ofInt (-24), F32.ofInt (-97)]),
    (.opVLineTo, [F32.ofInt (-27)]),
    (.opRRCurveTo, [F32.ofInt (-40), F32.ofInt (-9), F32.ofInt (-42), F32.ofInt (-13), F32.ofInt (-31), F32.ofInt (-11)]),
    (.opVVCurveTo, [F32.ofInt (-135), F32.ofInt (-49), F32.ofInt (-31), F32.ofInt (-46), F32.ofInt (-57)]),
    (.opHintMask, []),
    (.opVHCurveTo, [F32.ofInt (-83), F32.ofInt 61, F32.ofInt (-44), F32.ofInt 73, F32.ofInt 59, F32.ofInt 33, F32.ofInt 27, F32.ofInt 55, F32.ofInt 55]),
    (.opHintMask, []),
    (.opHHCurveTo, [F32.ofInt (-47), F32.ofInt 8, F32.ofInt 31, F32.ofInt (-30), F32.ofInt 57]),
    (.opHVCurveTo, [F32.ofInt 32, F32.ofInt 26, F32.ofInt 10, F32.ofInt 42, F32.ofInt 23])], some (F32.ofInt (-95))) := by
  decide +kernel

end PS.Tests
