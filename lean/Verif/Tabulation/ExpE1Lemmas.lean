import Verif.Tabulation.ExpE1Model
import Verif.Green.ExpIntEi
import Verif.Green.IntPoly
import Verif.Green.EulerGamma
import Verif.Green.LwnOsc
import Mathlib.Analysis.Calculus.Deriv.MeanValue
import Mathlib.Analysis.Complex.ExponentialBounds

/-!
# Accuracy of the approximations of the exponential integral on the negative real axis
-/

namespace Verif.Tabulation.ExpE1

open Real Verif.Green.PolyBound Verif.Green.ExpInt
open Verif.Green.IntPoly (nonnegI nonnegI_on scaled iev_scaled)
open Verif.Green.Lwn (pder hasDerivAt_ev euler evq ev_cast)

theorem cev_real (l : List ℚ) (x : ℝ) : cev l (x : ℂ) = ((ev l x : ℝ) : ℂ) := by
  induction l with
  | nil => simp [cev, ev]
  | cons a l ih =>
    simp only [cev, ev, ih]
    push_cast
    ring

theorem chor_real (l : List (ℚ × ℚ)) (x : ℝ) :
    chor l (x : ℂ) = ⟨ev (l.reverse.map Prod.fst) x, ev (l.reverse.map Prod.snd) x⟩ := by
  unfold chor
  rw [List.foldl_eq_foldr_reverse]
  induction l.reverse with
  | nil => apply Complex.ext <;> simp [ev]
  | cons c m ih =>
    rw [List.foldr_cons, ih]
    apply Complex.ext
    · simp [ev]
      ring
    · simp [ev]
      ring

/-- The function that is approximated, on the negative real axis. -/
noncomputable def target (z : ℝ) : ℝ := -(exp z * bigEi (-z))

theorem target_deriv {z : ℝ} (hz : z < 0) : HasDerivAt target (target z - 1 / z) z := by
  have h1 : HasDerivAt (fun z : ℝ => bigEi (-z)) (exp (-z) / -z * -1) z :=
    (bigEi_deriv (-z) (by linarith)).comp z (hasDerivAt_neg z)
  refine ((hasDerivAt_exp z).mul h1).neg.congr_deriv ?_
  unfold target
  have e : exp z * exp (-z) = 1 := by rw [← exp_add]; simp
  have hz' := hz.ne
  have : exp z * (exp (-z) / -z * -1) = 1 / z := by
    rw [show exp z * (exp (-z) / -z * -1) = (exp z * exp (-z)) / z by field_simp, e]
  rw [this]
  ring

/-- An error decays to the left. -/
theorem decay_upper {f ρ : ℝ → ℝ} {a b ε M : ℝ} (hab : a ≤ b) (hf : ∀ t ∈ Set.Icc a b, HasDerivAt f (f t + ρ t) t)
    (hρ : ∀ t ∈ Set.Icc a b, -ε ≤ ρ t) (hM : f b ≤ M) (hε : ε ≤ M) : f a ≤ M := by
  have hd : ∀ t ∈ Set.Icc a b, HasDerivAt (fun t => exp (-t) * (f t - ε)) (exp (-t) * (ρ t + ε)) t := by
    intro t ht
    have h1 : HasDerivAt (fun t : ℝ => exp (-t)) (-exp (-t)) t := by
      simpa using (hasDerivAt_neg t).exp
    refine (h1.mul ((hf t ht).sub_const ε)).congr_deriv ?_
    ring
  have hmono : MonotoneOn (fun t => exp (-t) * (f t - ε)) (Set.Icc a b) := by
    refine monotoneOn_of_deriv_nonneg (convex_Icc a b) (fun t ht => (hd t ht).continuousAt.continuousWithinAt) ?_ ?_
    · intro t ht
      rw [interior_Icc] at ht
      exact (hd t (Set.Ioo_subset_Icc_self ht)).differentiableAt.differentiableWithinAt
    · intro t ht
      rw [interior_Icc] at ht
      rw [(hd t (Set.Ioo_subset_Icc_self ht)).deriv]
      have := hρ t (Set.Ioo_subset_Icc_self ht)
      exact mul_nonneg (exp_pos _).le (by linarith)
  have h := hmono (Set.left_mem_Icc.2 hab) (Set.right_mem_Icc.2 hab) hab
  simp only at h
  have he : exp (-b) ≤ exp (-a) := exp_le_exp.2 (by linarith)
  have h2 : exp (-b) * (f b - ε) ≤ exp (-a) * (M - ε) := by
    calc exp (-b) * (f b - ε) ≤ exp (-b) * (M - ε) := mul_le_mul_of_nonneg_left (by linarith) (exp_pos _).le
      _ ≤ _ := mul_le_mul_of_nonneg_right he (by linarith)
  have h3 := le_of_mul_le_mul_left (h.trans h2) (exp_pos (-a))
  linarith

theorem decay {f ρ : ℝ → ℝ} {a b ε M : ℝ} (hab : a ≤ b) (hf : ∀ t ∈ Set.Icc a b, HasDerivAt f (f t + ρ t) t)
    (hρ : ∀ t ∈ Set.Icc a b, |ρ t| ≤ ε) (hM : |f b| ≤ M) (hε : ε ≤ M) : |f a| ≤ M := by
  rw [abs_le]
  constructor
  · have := decay_upper (f := fun t => -f t) (ρ := fun t => -ρ t) hab (fun t ht => (hf t ht).neg.congr_deriv (by ring))
      (fun t ht => by have := (abs_le.1 (hρ t ht)).2; linarith) (by have := (abs_le.1 hM).1; linarith) hε
    linarith
  · exact decay_upper hab hf (fun t ht => (abs_le.1 (hρ t ht)).1) ((abs_le.1 hM).2) hε

/-! ### The fourth case -/

/-- Real parts of the numerator and the denominator. -/
def nr : List ℚ := midN.reverse.map Prod.fst

/-- Imaginary part of the numerator. -/
def ni : List ℚ := midN.reverse.map Prod.snd

/-- Real part of the denominator. -/
def dr : List ℚ := midD.reverse.map Prod.fst

/-- Imaginary part of the denominator. -/
def di : List ℚ := midD.reverse.map Prod.snd

/-- The numerator of the real part. -/
def topL : List ℚ := padd (pmul nr dr) (pmul ni di)

/-- Its denominator. -/
def botL : List ℚ := padd (pmul dr dr) (pmul di di)

/-- The real part of the fourth case. -/
noncomputable def midRe (z : ℝ) : ℝ := ev topL z / ev botL z

theorem chor_ratio_re (z : ℝ) : (chor midN (z : ℂ) / chor midD (z : ℂ)).re = midRe z := by
  rw [chor_real, chor_real, Complex.div_re, ← add_div]
  unfold midRe topL botL
  rw [ev_padd, ev_padd, ev_pmul, ev_pmul, ev_pmul, ev_pmul, Complex.normSq_mk]
  rfl

/-- `z` times the square of the denominator times the residual, with a correction `c`. -/
def restNum (c : List ℚ) : List ℚ :=
  psub (psub (psub (pmul (euler topL) botL) (pmul topL (euler botL))) (pmul [0, 1] (pmul topL botL)))
    (pmul (pmul botL botL) (padd [-1] (psub (euler c) (pmul [0, 1] c))))

/-- The bound that it is compared with. -/
def restBound (e : ℚ) : List ℚ := pscale (-e) (pmul [0, 1] (pmul botL botL))

/-- The residual. -/
noncomputable def rest (c : List ℚ) (z : ℝ) : ℝ := ev (restNum c) z / (z * ev botL z ^ 2)

theorem ev_euler (l : List ℚ) (z : ℝ) : ev (euler l) z = z * ev (pder l) z := by
  simp [euler, ev]

theorem ev_var (z : ℝ) : ev [0, 1] z = z := by simp [ev]

theorem ev_neg_one (z : ℝ) : ev [-1] z = -1 := by simp [ev]

theorem mid_deriv (c : List ℚ) {z : ℝ} (hz : z < 0) (hB : ev botL z ≠ 0) :
    HasDerivAt (fun z => midRe z - target z - ev c z) (midRe z - target z - ev c z + rest c z) z := by
  have h1 : HasDerivAt midRe ((ev (pder topL) z * ev botL z - ev topL z * ev (pder botL) z) / ev botL z ^ 2) z :=
    (hasDerivAt_ev topL z).div (hasDerivAt_ev botL z) hB
  refine ((h1.sub (target_deriv hz)).sub (hasDerivAt_ev c z)).congr_deriv ?_
  unfold rest restNum midRe
  simp only [ev_psub, ev_padd, ev_pmul, ev_euler, ev_var, ev_neg_one]
  have hz' := hz.ne
  field_simp
  ring

theorem nonneg_scaled {m : List ℚ} {l : List ℤ} {n s : ℕ} {p w q : ℤ} (hs : 0 < s) (hw : 0 < w) (hq : 0 < q) (t : scaled s m l = true)
    (h : nonnegI l n p w q = true) {z : ℝ} (h1 : (p - w : ℝ) ≤ q * z) (h2 : q * z ≤ (p + w : ℝ)) : 0 ≤ ev m z := by
  have a := nonnegI_on l n p w q hw hq h z h1 h2
  rw [iev_scaled s m l t z] at a
  exact nonneg_of_mul_nonneg_right a (by exact_mod_cast hs)

theorem rest_le (c : List ℚ) (e : ℚ) {z : ℝ} (hz : z < 0) (hB : ev botL z ≠ 0) (a : 0 ≤ ev (psub (restBound e) (restNum c)) z)
    (b : 0 ≤ ev (padd (restBound e) (restNum c)) z) : |rest c z| ≤ e := by
  rw [ev_psub] at a
  rw [ev_padd] at b
  have hpos : 0 < ev botL z ^ 2 := by positivity
  have e1 : ev (restBound e) z = e * (-z * ev botL z ^ 2) := by
    unfold restBound
    rw [ev_pscale, ev_pmul, ev_pmul, ev_var]
    push_cast
    ring
  rw [e1] at a b
  unfold rest
  have hd : 0 < -z * ev botL z ^ 2 := mul_pos (by linarith) hpos
  rw [abs_div, show z * ev botL z ^ 2 = -(-z * ev botL z ^ 2) by ring, abs_neg, abs_of_pos hd, div_le_iff₀ hd, abs_le]
  constructor <;> linarith

/-- The bound minus the residual on part 1, with integer coefficients. -/
def lo1L : List ℤ :=
  [-119831836782622256717380992100000000, -1557335258125246068917568986353741388, 269248103106421124819308517602908811812, 4122548950163204782514540033295896661397, 14250678374096115964304993328211676515748, 539136508478686505773324905801933847327800, 10213111304452890278308872411775390710665066, 102289182286023476774429585169286504725309349, 737213871576036112351406958579299676438945224, 4223965985035119442525007306530369265784987387, 19654498214793082980786949537887456271918213040, 74882967302973495732070144290937815628326026880, 235950604366889189837498573580780437258864728640, 621175037473588719027533950091194784845334870920, 1378523863847335918741670588946188211201349276800, 2597890997213426870444180939461936102162701004720, 4182357322195799232825742626118369837968607150720, 5778632801815660689084883176165288127638503825000, 6876151543499032696105363476567619636631213610000, 7064770125933363292818188326835500620858085778200, 6278610037038251104363220237204162714586136452400, 4831695617377991394957872081061057945103923411600, 3220542877448510707722654920629811273501043200800, 1858282067119004474643344178216375238656529828600, 926813989103425020087934304133731229128894776000, 398493336010167563656647500799781430407554300000, 147093330156662896639778206968706817182429224000, 46317901549645381660579456109025115855923906000, 12319941880052058900503074852487832257735448000, 2723496188349574387395579836714790467934360000, 485777158057166779861853786705189839426204000, 65451548005313509316644235605142191197140000, 5341850907096558408528431841349866975280000, -147238473683382387537668435116783490750000, -141244759391648566212554894317571699740000, -28121447706719799567702067298713604850000, -3602837454139972664763293054835208800000, -332904809874378563840963530202327170000, -22446371050402000206993676736000000000, -1067318255623493521647400000000000000, -32572751626270080000000000000000000, -495647053000000000000000000000000]

/-- The bound plus the residual on part 1, with integer coefficients. -/
def hi1L : List ℤ :=
  [119831836782622256717380992100000000, 1557323274941567806691897248254531388, -269248506832412564861272120565172811812, -4122571013281263303333795610962136661397, -14251089577951389614199114113318096515748, -539145969447477296749123173720316047327800, -10213197506073916126743817704392518310665066, -102289841288078941078656800647544595053709349, -737217213258243701197625784512770802216545224, -4223979845642899496551031079062970961744987387, -19654540976315143958404859940525497687358213040, -74883072763804807659988696174597164785326026880, -235950809958643282211701209592398966570064728640, -621175363792174070724584868831030768118940870920, -1378524285957330641017609470085441479825757276800, -2597891447835061489508402531507134706569839004720, -4182357720946409443966490271568290538107407150720, -5778633096404405268302063703111866551705703825000, -6876151725841793751526351342146958381041213610000, -7064770220851437001921685301344346337664525778200, -6278610078668343083717826208430813243275416452400, -4831695632782251318601752226335607680861083411600, -3220542882256372800323706079422051406119763200800, -1858282068383145518414789956977623572736529828600, -926813989382608114905388457352803662216894776000, -398493336061717740116710727055266420987654300000, -147093330164564805888129989794771257732029224000, -46317901550640793671804991877640490049723906000, -12319941880153595837756992912223408400935448000, -2723496188357782954555337202860196976834360000, -485777158057675491151415251462309839426204000, -65451548005336397446710093605142191197140000, -5341850907097231682128431841349866975280000, 147238473683372387537668435116783490750000, 141244759391648566212554894317571699740000, 28121447706719799567702067298713604850000, 3602837454139972664763293054835208800000, 332904809874378563840963530202327170000, 22446371050402000206993676736000000000, 1067318255623493521647400000000000000, 32572751626270080000000000000000000, 495647053000000000000000000000000]

/-- The bound minus the residual on part 2, with integer coefficients. -/
def lo2L : List ℤ :=
  [-119831836782622256717380992100000000, -2030947832149482047321576458283351914, 247811083033535493663031811040527363660, 3042332925792606921076884269664709771492, -12938193100213193514505175335337982967767, -68072524558167816641699787531532209094311, 1572082468467817469301695788380959418282638, 16298103639733799541688627211712587860225545, 90669191186210194137210063138372987181160532, 422951562286225691348281109541055786670554346, 1674409928847872059604158196927869670048425240, 5393453394726531231668013529063499956459292040, 14182088795506620287463002351863341155661593360, 30960905468902216783137895202212120510229193080, 56846051119167353576558410616215286979929098880, 88538944325813887531423650682977187688096663360, 117745996940377107605734771346932226084932226360, 134418408317037556130862188536165051480598225400, 132298332500791573682267430597562373342925065400, 112639327796267031977622510202405271718480173600, 83159145876548123503606722147087783921781743600, 53314196642865699941317232139535272021378110200, 29694793186582670363004445658102801231656870400, 14359174945011914405251638854960093097709106800, 6016111069813402996915469286584119032236916000, 2175688302310360495280453808431563540767284000, 674848193013198398264394828425579950267424000, 177638508983937802342035588900717031876636000, 38950912160612360170461496154092623674650000, 6858374583223986473765859649389834702590000, 884835652900741423862716604191876911112000, 55491038921656263603515688409553721590000, -8626260529874744462702766279722307590000, -3599027985597305329918850583108815950000, -701769922911889003021877529195152660000, -96234175023636108594466977804836830000, -9986530698787296596332680809999800000, -793068376365872484494875501788060000, -47333415851506785016600448000000000, -2025326724577416433200000000000000, -56151135037440000000000000000000, -776054000000000000000000000000]

/-- The bound plus the residual on part 2, with integer coefficients. -/
def hi2L : List ℤ :=
  [119831836782622256717380992100000000, 2030945435512746394876442110663509914, -247811163778733781671424531632980163660, -3042337338416218625240735385197957771492, 12938110859442138784526351178316698967767, 68070632364409658446540133947855769094311, -1572099708792022638988684846904384938282638, -16298235440144892402534070307364205925905545, -90669859522651711906453828325067212336680532, -422954334407781702153485864047576125862554346, -1674418481152284255127740277455477953136425240, -5393474486892793617251723905795369787859292040, -14182129913857438762303529554187047017901593360, -30960970732619287122548078950179317164950393080, -56846135541166298031746186844065940704810698880, -88539034450140811344267969092016908569524263360, -117746076690499149833884300436916366112692226360, -134418467234786471974298293925480736294038225400, -132298368969343784766465003713430122224925065400, -112639346779881773798321905104174415079768173600, -83159154202566519374527916392417889659637743600, -53314199723717684670093261194445219172810110200, -29694794148155088883214677416550827755400870400, -14359175197840123159540794607209759913709106800, -6016111125650021960406299930398605649836916000, -2175688312620395787293099059528561656787284000, -674848194593580247934751393638468060187424000, -177638509183020204587142742623791870636636000, -38950912180919747621245108101207852314650000, -6858374584865699905717332878471136482590000, -884835653002483681775009555615876911112000, -55491038926233889616687288409553721590000, 8626260529740089742702766279722307590000, 3599027985595305329918850583108815950000, 701769922911889003021877529195152660000, 96234175023636108594466977804836830000, 9986530698787296596332680809999800000, 793068376365872484494875501788060000, 47333415851506785016600448000000000, 2025326724577416433200000000000000, 56151135037440000000000000000000, 776054000000000000000000000000]

/-- The bound minus the residual on part 3, with integer coefficients. -/
def lo3L : List ℤ :=
  [-1198318367826222567173809921000000, -21776074599763364861590207056041705, 2422157016551523233513158749496228000, 27490537916993823616008846454604480000, -192174206532894975971564205556217410000, -2085840249346382647876838549872463100000, -432345839714759158439541207306049800000, 25283436580843713427545627476132215863080, 41171228475931338960107577527288153096720, -48239837359950970548032301187384584318880, -138482509957883601353501750965167273658160, -29008396775379038933336664968027678588800, 118049391881831621156080727245380218340640, 73720756099379957017836808313785699593640, -36429138993318773538759590985659037253216, -55369884480781284128693717296022773707536, -23433407100793367439161289812470231734400, -4339296712862529692254218571872673396800, -463971548116113346912264694072533961600, -163319926176035086962091487394473029600, -65646398357958853790635810214639216640, -28404256899660989004762950388033109760, -18478455239331069861950334974562302080, -8918910977410837116098629032830064000, -2812758480410919707301115332217544000, -617837413953669249277451626456586000, -100217151796575897479186913527020800, -12478647981936131713558386185876800, -1217537193919819328156286816548800, -93410708703766610885171890049200, -5540730415491073286599680000000, -242613438483426576000000000000, -7069372800000000000000000000, -105000000000000000000000000]

/-- The bound plus the residual on part 3, with integer coefficients. -/
def hi3L : List ℤ :=
  [1198318367826222567173809921000000, 21775822952906121354851100555958295, -2422165494797343474394394411703772000, -27491001242473052553213213585595520000, 192165571251934229323787669068982590000, 2085641569001776037385074923586436900000, 430535605673216341305690062346370200000, -25297275624008463816317152519552112759480, -41241403802290704730702922130181794426320, 47948764596569836001533078002748969158880, 137584517994603071377383295566297549418160, 26793719317828552643747108121695381588800, -122366818717771479411436971234495753540640, -80573446391765595087130344869434445319640, 27564829104150978822255666667017924685216, 45906830153780935475260768125330223809536, 15059644286359411738606841477767316934400, -1847066923301031098811659575032737803200, -3365226434047727398264901419560076038400, -1829959621715138349502594272658462210400, -808585533208487871605123850887835663360, -295085201496860494046002594062867250240, -82486648705291004472686707810430817920, -17628050941789524237887585982849936000, -3050086510755617510299405762630456000, -464716291707658502087733175725514000, -65722942418811541868166338014579200, -8425004253800119427364471883923200, -914738488412459926290812190651200, -78969201651138078168364796850800, -5142206665299686612920320000000, -238037292899591424000000000000, -7069372800000000000000000000, -105000000000000000000000000]

/-- The denominator minus 1, with integer coefficients. -/
def botIL : List ℤ :=
  [33616735372161, 583137010321200, 26956080823072000, 139848669451161000, 814125236404310000, 1893952664199580000, 3501717633785181220, 3878385903619532080, 3162190713436142000, 1756848816502672000, 712424212197170000, 203911302973560000, 42026815612520100, 5985200928794800, 577784827721700, 33663680000000, 1000000000000]

theorem bot_pos {z : ℝ} (h1 : -16 ≤ z) (h2 : z ≤ -1 / 2) : ev botL z ≠ 0 := by
  have := nonneg_scaled (m := psub botL [1]) (l := botIL) (n := 12) (s := 10 ^ 12) (p := -33) (w := 31) (q := 4) (by norm_num)
    (by norm_num) (by norm_num) (by decide +kernel) (by decide +kernel) (z := z) (by push_cast; linarith) (by push_cast; linarith)
  rw [ev_psub] at this
  have e : ev [1] z = 1 := by simp [ev]
  rw [e] at this
  intro h
  linarith

/-- The correction between -1 and -1/2. -/
def corr1 : List ℚ :=
  [0.46206814, 5.63820186, 28.41656479, 78.40017212, 130.950988, 136.7107188, 87.63611771, 31.6732048, 4.95647053]

/-- The correction between -2 and -1. -/
def corr2 : List ℚ :=
  [0.27718656, 1.50097022, 3.48041541, 4.52725731, 3.62286251, 1.83076692, 0.57177995, 0.101099, 0.00776054]

theorem rest1 {z : ℝ} (h1 : -1 ≤ z) (h2 : z ≤ -1 / 2) : |rest corr1 z| ≤ 5e-5 := by
  have := rest_le corr1 5e-5 (z := z) (by linarith) (bot_pos (by linarith) h2)
    (nonneg_scaled (l := lo1L) (n := 12) (s := 10 ^ 32) (p := -3) (w := 1) (q := 4) (by norm_num) (by norm_num) (by norm_num)
      (by decide +kernel) (by decide +kernel) (by push_cast; linarith) (by push_cast; linarith))
    (nonneg_scaled (l := hi1L) (n := 12) (s := 10 ^ 32) (p := -3) (w := 1) (q := 4) (by norm_num) (by norm_num) (by norm_num)
      (by decide +kernel) (by decide +kernel) (by push_cast; linarith) (by push_cast; linarith))
  norm_num at this ⊢
  exact this

theorem rest2 {z : ℝ} (h1 : -2 ≤ z) (h2 : z ≤ -1) : |rest corr2 z| ≤ 1e-5 := by
  have := rest_le corr2 1e-5 (z := z) (by linarith) (bot_pos (by linarith) (by linarith))
    (nonneg_scaled (l := lo2L) (n := 12) (s := 10 ^ 32) (p := -3) (w := 1) (q := 2) (by norm_num) (by norm_num) (by norm_num)
      (by decide +kernel) (by decide +kernel) (by push_cast; linarith) (by push_cast; linarith))
    (nonneg_scaled (l := hi2L) (n := 12) (s := 10 ^ 32) (p := -3) (w := 1) (q := 2) (by norm_num) (by norm_num) (by norm_num)
      (by decide +kernel) (by decide +kernel) (by push_cast; linarith) (by push_cast; linarith))
  norm_num at this ⊢
  exact this

theorem rest3 {z : ℝ} (h1 : -16 ≤ z) (h2 : z ≤ -2) : |rest [0] z| ≤ 1.05e-4 := by
  have := rest_le [0] 1.05e-4 (z := z) (by linarith) (bot_pos (by linarith) (by linarith))
    (nonneg_scaled (l := lo3L) (n := 12) (s := 10 ^ 30) (p := -9) (w := 7) (q := 1) (by norm_num) (by norm_num) (by norm_num)
      (by decide +kernel) (by decide +kernel) (by push_cast; linarith) (by push_cast; linarith))
    (nonneg_scaled (l := hi3L) (n := 12) (s := 10 ^ 30) (p := -9) (w := 7) (q := 1) (by norm_num) (by norm_num) (by norm_num)
      (by decide +kernel) (by decide +kernel) (by push_cast; linarith) (by push_cast; linarith))
  norm_num at this ⊢
  exact this

theorem corr1_le {z : ℝ} (h1 : -1 ≤ z) (h2 : z ≤ -1 / 2) : |ev corr1 z| ≤ 7.7e-4 := by
  have t1 : nonneg (psub [7.7e-4] corr1) 10 (-3 / 4) (1 / 4) = true := by decide +kernel
  have t2 : nonneg (padd [7.7e-4] corr1) 10 (-3 / 4) (1 / 4) = true := by decide +kernel
  have a := nonneg_on _ 10 _ _ (by norm_num) t1 z (by push_cast; linarith) (by push_cast; linarith)
  have b := nonneg_on _ 10 _ _ (by norm_num) t2 z (by push_cast; linarith) (by push_cast; linarith)
  rw [ev_psub] at a
  rw [ev_padd] at b
  have e : ev [7.7e-4] z = 7.7e-4 := by simp [ev]
  rw [e] at a b
  rw [abs_le]
  constructor <;> linarith

theorem corr2_le {z : ℝ} (h1 : -2 ≤ z) (h2 : z ≤ -1) : |ev corr2 z| ≤ 9.2e-5 := by
  have t1 : nonneg (psub [9.2e-5] corr2) 10 (-3 / 2) (1 / 2) = true := by decide +kernel
  have t2 : nonneg (padd [9.2e-5] corr2) 10 (-3 / 2) (1 / 2) = true := by decide +kernel
  have a := nonneg_on _ 10 _ _ (by norm_num) t1 z (by push_cast; linarith) (by push_cast; linarith)
  have b := nonneg_on _ 10 _ _ (by norm_num) t2 z (by push_cast; linarith) (by push_cast; linarith)
  rw [ev_psub] at a
  rw [ev_padd] at b
  have e : ev [9.2e-5] z = 9.2e-5 := by simp [ev]
  rw [e] at a b
  rw [abs_le]
  constructor <;> linarith

end Verif.Tabulation.ExpE1
