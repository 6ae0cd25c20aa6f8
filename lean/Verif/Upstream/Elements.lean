import Verif.Model.Init
import Verif.Model.Query
import Verif.Model.GetD
import Verif.Model.Convert
import Verif.Model.ArraysLast
import Verif.Lemmas.Force
import Verif.Lemmas.FastNf
import Verif.Lemmas.KDecide
import Verif.Lemmas.Scale2Inst

/-!
# The upstream tests of elements (C library)

Literal inputs of `libeantic/test/renf_elem/*.c`, evaluated in the model by the kernel, with the ball arithmetic
`fpArb` (as `forcedArb`, `forcedArb_eq`) and the exact arithmetic `fastOps N`, for an arbitrary `N` (whose answers are not used, as all checks
of `fastOps` succeed).  The program passes these tests; here the model is checked against the same
expectations.  Loops over many values are cut short and random choices fixed.  This is a test of the model, not
a proof of a property.
-/

namespace EAntic.Upstream

/-- the program on the field made by `init`, all elements zero -/
def onField {K : Nf} (N : NfOps K) (init : Res Field) (m : Env K → M Bool) : Bool :=
  match init with
  | .ok f =>
    match m ⟨forcedArb, fastOps N, refineEmbedding forcedArb false 100, 100⟩ ⟨f, fun _ => ⟨NfElem.init K, .exact 0⟩⟩ with
    | .ok r => r.1
    | _ => false
  | _ => false

/-- evaluate a list of numbers, then go on -/
def forceList {α : Sort*} : List ℤ → (List ℤ → α) → α
  | [], f => f []
  | z :: l, f => forceInt z fun z => forceList l fun l => f (z :: l)

/-- evaluate an element, then go on -/
def forceElem {α : Sort*} (e : Elem) (f : Elem → α) : α :=
  forceList e.elem.num fun n => forceInt e.elem.den fun d => forceInt e.elem.stale fun st =>
  match e.emb.force with
  | .fin m r => f ⟨⟨n, d, st⟩, .fin m r⟩
  | .whole => f ⟨⟨n, d, st⟩, .whole⟩

/-- has the kernel evaluate the contents of memory; does nothing -/
def tick : M Unit := fun s =>
  match s.fld.emb.force with
  | .fin m r => forceElem (s.heap (.user 0)) fun x => forceElem (s.heap (.user 1)) fun y =>
    forceElem (s.heap (.tmp 0)) fun z =>
    .ok ((), ⟨{ s.fld with emb := .fin m r },
      fun i => if i = .user 0 then x else if i = .user 1 then y else if i = .tmp 0 then z
        else ⟨NfElem.init s.fld.nf, .exact 0⟩⟩)
  | .whole => .ub

/-- all tests succeed -/
def allM {α : Type} (l : List α) (f : α → M Bool) : M Bool :=
  match l with
  | [] => pure true
  | a :: l => do tick; if ← f a then allM l f else pure false

abbrev a : Reg := .user 0
abbrev b : Reg := .user 1

/-- `x² - x - 1` -/
def golden : Nf := ⟨[-1, -1, 1]⟩
/-- `t-floor.c:66-73` -/
def goldenInit (prec : ℤ) : Res Field :=
  renfInit forcedArb scale2Simple false 100 100 golden.pol (.fin (161803398874989 / 10 ^ 14) (1 / 2 ^ 20)) prec

/-- the parity of `n` and the Fibonacci numbers `F n`, `F (n + 1)` -/
def fibs : List (ℤ × ℤ × ℤ) :=
  [(1, 1, 1), (0, 1, 2), (1, 2, 3), (0, 3, 5), (0, 55, 89)]
/-- the same, large -/
def bigFibs : List (ℤ × ℤ × ℤ) :=
  [(1, 1134903170, 1836311903), (0, 354224848179261915075, 573147844013817084101)]

/-- `t-floor.c:45-88`, `t-ceil.c:45-88`: differences of quotients of Fibonacci numbers and the golden ratio -/
example (N : NfOps golden) : onField N (goldenInit 20) (fun E => allM fibs fun k => do
    E.setPoly a [k.2.2, -k.2.1] k.2.1
    tick
    let f ← E.floor a
    tick
    let c ← E.ceil a
    pure (f == -k.1 && c == 1 - k.1)) = true := by kdecide

example (N : NfOps golden) : onField N (goldenInit 25) (fun E => allM bigFibs fun k => do
    E.setPoly a [k.2.2, -k.2.1] k.2.1
    tick
    let f ← E.floor a
    tick
    let c ← E.ceil a
    pure (f == -k.1 && c == 1 - k.1)) = true := by kdecide

/-- `t-floor.c:90-132`: the inverse, the floor of a very large number -/
example (N : NfOps golden) : onField N (goldenInit 25) (fun E => allM fibs fun k => do
    E.setPoly a [k.2.2, -k.2.1] k.2.1
    tick
    E.inv a a
    tick
    let f ← E.floor a
    -- `1 / (F (n+1) / F n - φ)` is about `± √5 F n ^ 2`
    pure (decide (f.sign = 1 - 2 * k.1) && decide (2 * k.2.1 ^ 2 ≤ |f| ∧ |f| ≤ 3 * k.2.1 ^ 2 + 1))) = true := by
  kdecide

/-! ## `3^(1/4)` -/

/-- `x⁴ - 3` -/
def quart : Nf := ⟨[-3, 0, 0, 0, 1]⟩
/-- `t-floor.c:145-146` -/
def quartInit (prec : ℤ) : Res Field := renfInitNthRoot forcedArb scale2Simple false 100 100 3 4 prec

/-- `t-floor.c:134-218`, `t-ceil.c`: convergents of the continued fraction of `3^(1/4)`, and a number close to 231:
numerators, denominator, floor and ceiling -/
def nearIntegers : List (List ℤ × ℤ × ℤ × ℤ) := [
    ([0, 1], 1, 1, 2),
    ([-3871793620206447926, 2941926960111028069], 2941926960111028069, 0, 1),
    ([-4393442218385055959, 3338294180377262795], 3338294180377262795, -1, 0),
    ([-51566086581654990699052199424489069476470199719930170996263916596162993841059250500042162091, 39181752754141206003124111890355840072199542360218864430892618765033598468868752146602163065], 39181752754141206003124111890355840072199542360218864430892618765033598468868752146602163065, 0, 1),
    ([-80796322887694335717970676356641716096406222234122724217891106756946083353628876437327250032, 61391929399498685496270115285641595325756438975454257165479021482386018841773493669624721869], 61391929399498685496270115285641595325756438975454257165479021482386018841773493669624721869, -1, 0),
    ([-2606397738765082593075971698621884741438230063325574152430065240334763649605590307388833760818882942002304268657636257132952690366307062554954704034538387051961, 2335103982818259467159161065388766615940936515933026605387121510294003178199319743523415488053394816962611511283086156774223983366849393245259064637738197210335, -269515128218624680351338174118138354687227322655917599391646834063953040502523529634932018116296319480533374568476475618817981623959736360388060569986257591135, 20666577441791882995659069741213044029800125414592582273977694565977202863632646517545059420510504463636635589721203427142355191033066925002950768214654590], 22368217023608099019680056969794805271014609160310516212564944277382322796888750190164003536091038167412642630171709323878773764046941334267668598903335, 230, 231)]

example (N : NfOps quart) : onField N (quartInit 20) (fun E => allM nearIntegers fun t => do
    E.setPoly a t.1 t.2.1
    tick
    let f ← E.floor a
    pure (f == t.2.2.1)) = true := by kdecide

example (N : NfOps quart) : onField N (quartInit 28) (fun E => allM nearIntegers fun t => do
    E.setPoly a t.1 t.2.1
    tick
    let c ← E.ceil a
    pure (c == t.2.2.2)) = true := by kdecide

/-- `t-equal_fmpq.c:24-45` -/
example (N : NfOps quart) : onField N (quartInit 33) (fun E => do
    E.setQ a (-10 / 7)
    tick
    let e ← E.equalQ a (-10 / 7)
    E.addZ a a 1
    tick
    let e' ← E.equalQ a (-10 / 7)
    pure (e && !e')) = true := by kdecide

/-! ## `(2/3)^(1/n)` -/

/-- `t-gen.c:32-54`: the `n`-th power of the generator of the field of `(2/3)^(1/n)` is `2/3` -/
example (N : NfOps ⟨nthRootPol (2 / 3) 2⟩) :
    onField N (renfInitNthRoot forcedArb scale2Simple false 100 100 (2 / 3) 2 64) (fun E => do
    E.gen a
    E.set b a
    tick
    E.mul b b a
    tick
    pure ((← E.cmpQ b (2 / 3)) == 0 && (← E.equalQ b (2 / 3)))) = true := by kdecide

example (N : NfOps ⟨nthRootPol (2 / 3) 3⟩) :
    onField N (renfInitNthRoot forcedArb scale2Simple false 100 100 (2 / 3) 3 64) (fun E => do
    E.gen a
    E.set b a
    tick
    E.mul b b a
    tick
    E.mul b b a
    tick
    pure ((← E.cmpQ b (2 / 3)) == 0 && (← E.equalQ b (2 / 3)))) = true := by kdecide

example (N : NfOps ⟨nthRootPol (2 / 3) 4⟩) :
    onField N (renfInitNthRoot forcedArb scale2Simple false 100 100 (2 / 3) 4 64) (fun E => do
    E.gen a
    E.set b a
    tick
    E.mul b b a
    tick
    E.mul b b a
    tick
    E.mul b b a
    tick
    pure ((← E.cmpQ b (2 / 3)) == 0 && (← E.equalQ b (2 / 3)))) = true := by kdecide

/-! ## Conversion to balls and doubles -/

/-- `t-get_arb.c:44-74`: at least the accuracy asked for, in this order -/
example (N : NfOps golden) : onField N (goldenInit 22) (fun E => do
    E.setPoly a [-2501, 137] 1
    allM [30, 135, 100, 1000] fun prec => do
      let x ← E.getArb a prec
      pure (decide (prec ≤ x.relAccuracyBits))) = true := by kdecide

/-! ## Comparisons -/

/-- `x² - 5` -/
def sqrt5 : Nf := ⟨[-5, 0, 1]⟩
/-- `t-cmp.c:102-104` -/
def sqrt5Init (prec : ℤ) : Res Field := renfInitNthRoot forcedArb scale2Simple false 100 100 5 2 prec

/-- `t-cmp.c:40-75` (`check_cmp`) -/
def checkCmp {K : Nf} (E : Env K) (ans : ℤ) : M Bool := do
  tick
  let x ← E.cmp a a
  let y ← E.cmp b b
  tick
  let z ← E.cmp a b
  tick
  let t ← E.cmp b a
  pure (x == 0 && y == 0 && z.sign == ans && t.sign == -ans)

/-- `t-cmp.c:89-124` -/
example (N : NfOps sqrt5) : onField N (sqrt5Init 20) (fun E => do
    E.setPoly a [1, 1] 2
    allM (fibs ++ bigFibs) fun k => do
      E.setQ b (k.2.2 / k.2.1)
      checkCmp E (2 * k.1 - 1)) = true := by kdecide

/-- `t-cmp.c:137-159`: the numerators of the polynomial of `test_field2` -/
def quint : Nf := ⟨[-2268045666998571874287027273082327966167580409721134877325951168353929350063435963822191420891434051462308895044711134351699039722943578461344587665863871369518111410740835624560131413988737815151600207476519817753034339560078237091619061441439538042634203146248910606768781464345555253521532431857596405420511014920623767104557350043641878229946615593300, 94289738020742538497386115880623155447951771375141944824441576479504113425614035835117673277910586795283118648211886681447788492272674858972071916543733853225349831183011644224212864492556665369993179201352414898814807445899664667182904301194696421403416112035938571809865880869808634034258311263519392882336059669470055078703487136235248303562446340824414, -2081268254332013085441945879548954963449762713406737169273961351692351479299082742210707273457032136825083259848676992692861097323140527478370351763577934143367202257123971276808340083975164159591453782742544532219031851803463377628603601909548433480071646609448439399640061580664246732645722946596864589093571605176786589054866300841556631519437089357104, -72267603292650379273021003818119598109974730838955553357489009583517659578303802218242404240964014588103227843075784290200007700557780011513712105137028149480599349493618744311684912120683144456965591440345014575240457704648676128504094834592140439333374826486851001808407972552849338653489349062880927700595376701878115953323434814141657052832808762700, -4236675790044961461917747684662919529754796390057277330785512211345565182041393654033390890389066388898798318389456412771452424321769334429384868799534710129770383838683340639789473988019925239584676385218658156043993730436121073423271603334351987413209281288327522072654953279602772892327002148997476086238278188990348396111027499164551890935299531333805, 2245797621206420259419891431276306789201007403758805638597703962665748914886355720302507623457597773468977836373198443613637641739294461783219325928706220349860140935049915666928547015770118537811714175023135611647543029089718969829428443869034224971138560952069314926629049997175154042881942888859371018433092135789709004603906441070346315306008458551592]⟩
/-- `t-cmp.c:162-165`: the double `0.02406681384217074` with an error of `2^(-30)` -/
def quintInit (prec : ℤ) : Res Field :=
  renfInit forcedArb scale2Simple false 100 100 quint.pol (.fin (6936786806502095 / 288230376151711744) (1 / 2 ^ 30)) prec

/-- `t-cmp.c:170-193` -/
example (N : NfOps quint) : onField N (quintInit 20) (fun E => do
    E.setPoly a [] 1
    E.setPoly b [0, 1] 1
    let r1 ← checkCmp E (-1)
    E.setQ a 1
    E.setPoly b [0, 0, 1000, 30200] 1
    let r2 ← checkCmp E (-1)
    E.setPoly b [0, 0, 1720] 1
    let r3 ← checkCmp E 1
    pure (r1 && r2 && r3)) = true := by kdecide

/-- `t-cmp.c:195-218`: convergents of the continued fraction of the generator -/
example (N : NfOps quint) : onField N (quintInit 25) (fun E => do
    E.setPoly b [0, 1] 1
    allM [(221655207065935536852143085919187545393247732705488147621 / 9209993832982713679383004265379023648794553006393164120912, -1),
      (5446949138829031961728431244587429624292878396822018421757841049528074920313886923130786866546471390407865703 / 226326142486077269509785716612844376571501620403803595766142665256382906174395467715156038314153788698218118952, 1),
      (20838994720018445309077664556953837708231807765847017174748319886797727523383947968545890726982756942159490264817378355018362444221153090144253577811530954386879565522090027733742213035789146181749525006128258253280908331737199831098075281056176346806995804215267891411419 / 865880912059227603040872760489068236422863408896201094981820354474957221555082834728872622944139692411349823061625748647839370567541815533481175179908570979414079130778157654192732508344851119989949521472418828042634498540584460073346459790139531848662818637824281245595752, 1)]
      fun t => do
        E.setQ a t.1
        checkCmp E t.2) = true := by kdecide

/-- `t-cmp.c:220-244`: a zero with old storage; a small number whose enclosure contains zero -/
example (N : NfOps quint) : onField N (quintInit 29) (fun E => do
    E.setZ a 1
    tick
    E.zero a
    tick
    let r1 ← E.cmpQ a 1
    let r2 ← E.cmpQ a (-1)
    E.setQ b (1 / 3)
    tick
    E.sub b b b
    tick
    E.addQ b b (1 / 2 ^ 1024)
    let r3 ← checkCmp E (-1)
    pure (r1.sign == -1 && r2.sign == 1 && r3)) = true := by kdecide

/-! ## Continued fractions -/

/-- `x³ - 2` -/
def cube : Nf := ⟨[-2, 0, 0, 1]⟩

/-- `t-get_cfrac.c:59-88`: the convergents are below and above in turn -/
def checkConvergents {K : Nf} (E : Env K) : List ℤ → ℤ → ℤ × ℤ → ℤ × ℤ → M Bool
  | [], _, _, _ => pure true
  | z :: l, s, c0, c1 => do
    tick
    let d := (c0.1 + c1.1 * z, c0.2 + c1.2 * z)
    let ans ← forceRat ((d.1 : ℚ) / d.2) fun q => E.cmpQ a q
    if ans.sign == s then checkConvergents E l (-s) c1 d else pure false

/-- `t-get_cfrac.c:111-113`, for the generator -/
example (N : NfOps cube) : onField N (renfInitNthRoot forcedArb scale2Simple false 100 100 2 3 64) (fun E => do
    E.gen a
    tick
    let r ← Arrays.getCfrac E [0, 0, 0, 0, 0] b a 5
    tick
    if r == (5, [1, 3, 1, 5, 1]) then checkConvergents E r.2 1 (0, 1) (1, 0) else pure false) = true := by kdecide

/-- a rational number: the remainder is zero and the last convergent is the number -/
example (N : NfOps cube) : onField N (renfInitNthRoot forcedArb scale2Simple false 100 100 2 3 64) (fun E => do
    E.setQ a (-157 / 68)
    tick
    let r ← Arrays.getCfrac E [0, 0, 0, 0, 0, 0, 0, 0, 0, 0] b a 10
    tick
    pure (r == (5, [-3, 1, 2, 4, 5, 0, 0, 0, 0, 0]) && (← E.isZero b))) = true := by kdecide

/-! ## Powers, quotients -/

/-- `t-pow.c`, `t-binop.cpp`: sums, products and quotients -/
example (N : NfOps quart) : onField N (quartInit 64) (fun E => do
    E.setPoly a [3, -4, 7, 1] 6
    E.setPoly b [-5, 2, 0, 9] 4
    tick
    E.mul a a b
    tick
    E.div a a b
    tick
    let r1 ← E.equal a b
    E.setPoly b [3, -4, 7, 1] 6
    tick
    let r2 ← E.equal a b
    E.pow b a 3
    tick
    E.div b b a
    tick
    E.div b b a
    tick
    let r3 ← E.equal a b
    E.sub a a b
    tick
    pure (!r1 && r2 && r3 && (← E.isZero a))) = true := by kdecide

end EAntic.Upstream
