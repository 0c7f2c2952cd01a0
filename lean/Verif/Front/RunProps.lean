import Verif.Front.Program
import Verif.Check.TextProps
import Verif.Eval.ScopeProps

/-!
# Accepted programs run with all their variables (C69, C24, C23)

A plain program (`Front/Plain.lean`) whose files the checker accepts never gets to a variable that is
not there: the theorems of `Eval/ResolveProps.lean` and `Eval/ScopeProps.lean` apply to it, from the
text to the run.
-/

namespace Dyon.Plain

open Front (Src FnSrc BodySrc FileSrc ModSrc LMod)
open Front.Spec (fnName)
open Check.Spec (fitsFn)

section
variable [FloatOps] [Data.Lex] {src : Nat → ModSrc} {base : ECfg}
variable {va ra : Nat → Nat}

theorem upToLast_mem {α} {l : List α} : ∀ {ls : List (List α)}, l ∈ Front.Spec.upToLast ls → l ∈ ls
  | [], h => h
  | a :: r, h => by
    rw [Front.Spec.upToLast] at h
    split at h
    · cases h
    · rcases List.mem_cons.1 h with rfl | h
      · exact List.mem_cons_self
      · exact List.mem_cons_of_mem _ (upToLast_mem h)

theorem conds_empty {file : String} {args : List Front.FnArg} {conds} (ha : ∀ a ∈ args, a.lazy = [])
    (h : (args.mapM fun a => a.lazy.mapM (Front.Spec.lazy file)) = some conds) : ∀ l ∈ conds, l = [] := by
  intro l hl
  obtain ⟨i, hi⟩ := List.getElem?_of_mem hl
  have := mapM_get h i
  rw [hi] at this
  obtain ⟨a, h1, h2⟩ := Option.map_eq_some_iff.1 this
  rw [ha a (List.mem_of_getElem? h1)] at h2
  simpa using h2.symm

theorem fn_ok {file : String} {find : String → FnIndex} {k : Ctx} {ar : Int → Nat} {C : String → Called} {f : FnSrc}
    {g : Func} (hk : Known find k ar C) (hp : plainFn C f) (hf : fitsFn f) (h : Front.Spec.fn file f = some g) :
    (freshCurrents g.args g.currents ∧ SSeq k ar (lookedList find g.body) (fnEnv g.returns g.args g.currents) []) ∧
      WFs k (lookedList find g.body) ∧ ∀ l ∈ g.lazyInv, l = [] := by
  obtain ⟨-, h2, h3, h4, h5, conds, h6, h7⟩ := fn_parts h
  rw [h2, h3, h4]
  obtain ⟨p1, p2, p3⟩ := hp
  obtain ⟨-, f2⟩ := hf
  have hl : ∀ l ∈ g.lazyInv, l = [] := fun l hl => conds_empty p2 h6 l (upToLast_mem (h7 ▸ hl))
  have hs := fun r => Sees.fn (f.args.map (·.name)) (f.currents.map (·.name)) r
  cases hb : f.body with
  | block es _ =>
    rw [hb] at h5 p3 f2
    obtain ⟨a, b⟩ := ok_seq hk es h5 p3 f2 (hs false)
    exact ⟨⟨p1, a⟩, b, hl⟩
  | returns _ es _ =>
    rw [hb] at h5 p3 f2
    obtain ⟨a, b⟩ := ok_seq hk es h5 p3 f2 (hs true)
    exact ⟨⟨p1, a⟩, b, hl⟩
  | expr e =>
    rw [hb] at h5 p3 f2
    simp only [Front.Spec.body, Option.bind_eq_bind, Option.bind_eq_some_iff, Option.some.injEq] at h5
    obtain ⟨e', he, h5⟩ := h5
    rw [← h5]
    obtain ⟨a, b⟩ := ok_expr hk e he p3 f2 (hs true)
    exact ⟨⟨p1, a, rfl, fun h => absurd rfl h, trivial⟩, ⟨b, trivial⟩, hl⟩

/-- The program with the modules `src`; `base` says what the functions of the host do. -/
def Loads (base : ECfg) (src : Nat → ModSrc) (c : ECfg) : Prop :=
  ∃ mods, (∀ m, (src m).build = .ok (mods m)) ∧ c = base.withModules mods

/-- The checker accepts the variables of a file. -/
def Accepts (fs : List FnSrc) : Prop :=
  ∃ ts ns', Check.built (fs.map FnSrc.tree) = .ok ts ∧ (Check.arena ts).linkAll = .ok ns'

/-- The programs the theorems are about: all files are accepted by the checker, and plain; the conditions of functions of
the host that need not get all arguments are about the first argument. -/
structure Fine (va ra : Nat → Nat) (src : Nat → ModSrc) : Prop where
  sigs : ∀ m, ∀ f ∈ (src m).files, ∀ g ∈ f.fns, ∀ k ∈ Check.Spec.sigs g.body, Check.Spec.SigOf k
  accepted : ∀ m, ∀ f ∈ (src m).files, Accepts f.fns
  plain : ∀ m, ∀ e ∈ (src m).entries, plainFn (fun name => calledAs va ra (src m).entries (e.target name)) e.fn
  host : ∀ m, ∀ x ∈ added (src m), ∀ l ∈ x.p.lazy.tail, l = []

/-- Every function of the program has its variables in scope and is well formed. -/
theorem modules_ok {c : ECfg} (hl : Loads base src c) (hg : Fine va ra src) :
    ModulesScoped c va ra ∧ ModulesWF c va ra := by
  obtain ⟨mods, hc, rfl⟩ := hl
  have key : ∀ m idx fn, ((base.withModules mods).modules m)[idx]? = some fn →
      FnScoped (base.withModules mods) va ra m idx fn ∧ WFs (ctxAt (base.withModules mods) va ra m idx) fn.body ∧
        ∀ l ∈ fn.lazyInv, l = [] := by
    intro m idx fn h
    obtain ⟨e, g, h1, h3, rfl⟩ := modules_get hc h
    have hm := List.mem_of_getElem? h1
    obtain ⟨f, hf, hfn⟩ := Front.entries_files _ e hm
    obtain ⟨ts, ns', h4, h5⟩ := hg.accepted m f hf
    have hfit := (Check.C69_stored_partial f.fns (hg.sigs m f hf) h4).1 ⟨ns', h5⟩ e.fn hfn
    exact fn_ok (known hc hg.host h1) (hg.plain m e hm) hfit h3
  exact ⟨fun m idx fn h => (key m idx fn h).1, fun m idx fn h => (key m idx fn h).2⟩

end

section
variable [FloatOps] [Data.Lex] [VecMath] {src : Nat → ModSrc} {base c : ECfg}
variable {va ra : Nat → Nat} {st : St}

omit [VecMath] in
theorem Loads.has (hl : Loads base src c) {m name} (h : ∃ e ∈ (src m).entries, fnName e.fn = name) :
    ∃ fn ∈ c.modules m, fn.name = name := by
  obtain ⟨mods, hc, rfl⟩ := hl
  obtain ⟨e, h1, h2⟩ := h
  obtain ⟨i, hi⟩ := List.getElem?_of_mem h1
  obtain ⟨g, h3, h4⟩ := modules_has (base := base) hc hi
  exact ⟨_, List.mem_of_getElem? h4, by simpa [Func.looked, h2] using (fn_parts h3).1⟩

omit [VecMath] in
theorem Loads.from (hl : Loads base src c) {m fn} (h : fn ∈ c.modules m) :
    ∃ e ∈ (src m).entries, fn.name = fnName e.fn ∧ fn.args.length = e.fn.args.length := by
  obtain ⟨mods, hc, rfl⟩ := hl
  obtain ⟨i, hi⟩ := List.getElem?_of_mem h
  obtain ⟨e, g, h1, h3, rfl⟩ := modules_get hc hi
  obtain ⟨p1, p2, _⟩ := fn_parts h3
  exact ⟨e, List.mem_of_getElem? h1, p1, by simp [Func.looked, p2]⟩

/-- The program stops with `msg` where a variable is not there. -/
def stopping (c : ECfg) (msg : String) : ECfg := { c with lost := some msg }

/-- **C69.** A plain program whose files the checker accepts never gets to a variable that is not there: it makes no
difference with what the program would stop at such a place, whether variables are read at the slots computed before the run
or searched for by name. -/
theorem C69_variables_exist_partial (hl : Loads base src c) (hg : Fine va ra src) (hb : base.byName = false)
    (hE : ExtFns c va ra) (hS : ExtStill c) (n m : Nat) (hmain : ∃ e ∈ (src m).entries, fnName e.fn = "main") (hst : Ready c va ra st)
    (msg : String) :
    run (stopping c.resolve msg) n m st = run c.resolve n m st ∧
    run (stopping c.resolve.named msg) n m st = run c.resolve n m st := by
  obtain ⟨hs, hw⟩ := modules_ok hl hg
  have hbc : c.byName = false := by obtain ⟨mods, _, rfl⟩ := hl; exact hb
  have hmain' := hl.has hmain
  have h1 := C24_run_partial (lost := none) hbc hE hS hw hs n m hmain' hst
  have h2 := C24_run_partial (lost := some msg) hbc hE hS hw hs n m hmain' hst
  have h3 := C24_run_partial (c := stopping c msg) (lost := none) (st := st) hbc
    (⟨hE.void, hE.ret⟩ : ExtFns (stopping c msg) va ra) ⟨hS.void, hS.ret⟩ hw hs n m hmain' ⟨hst.calls, hst.wf, hst.res⟩
  exact ⟨h3.trans h1.symm, h2.symm⟩

/-- **C69.** The same for a host that calls functions of a plain program one after the other. -/
theorem C69_session_partial (hl : Loads base src c) (hg : Fine va ra src) (hb : base.byName = false)
    (hE : ExtFns c va ra) (hS : ExtStill c) (n m : Nat) (calls : List HostCall)
    (hfn : ∀ h ∈ calls, ∃ e ∈ (src m).entries, fnName e.fn = h.name)
    (hlen : ∀ h ∈ calls, ∀ e ∈ (src m).entries, fnName e.fn = h.name → e.fn.args.length = h.args.length) (hst : Ready c va ra st)
    (msg : String) :
    session (stopping c.resolve msg) n m calls st = session c.resolve n m calls st ∧
    session (stopping c.resolve.named msg) n m calls st = session c.resolve n m calls st := by
  obtain ⟨hs, hw⟩ := modules_ok hl hg
  have hbc : c.byName = false := by obtain ⟨mods, _, rfl⟩ := hl; exact hb
  have hfn' := fun h hh => hl.has (hfn h hh)
  have hlen' : ∀ h ∈ calls, ∀ fn ∈ c.modules m, fn.name = h.name → fn.args.length = h.args.length := by
    intro h hh fn hf hn
    obtain ⟨f, h1, h2, h3⟩ := hl.from hf
    rw [h3, hlen h hh f h1 (h2.symm.trans hn)]
  have h1 := C24_session_partial (lost := none) hbc hE hS hw hs n m calls hfn' hlen' hst
  have h2 := C24_session_partial (lost := some msg) hbc hE hS hw hs n m calls hfn' hlen' hst
  have h3 := C24_session_partial (c := stopping c msg) (lost := none) (st := st) hbc
    (⟨hE.void, hE.ret⟩ : ExtFns (stopping c msg) va ra) ⟨hS.void, hS.ret⟩ hw hs n m calls hfn' hlen'
    ⟨hst.calls, hst.wf, hst.res⟩
  exact ⟨h3.trans h1.symm, h2.symm⟩

/-- **C24.** A plain program whose files the checker accepts runs the same whether its variables are read at the slots
computed before the run or searched for by name. -/
theorem C24_text_partial (hl : Loads base src c) (hg : Fine va ra src) (hb : base.byName = false)
    (hE : ExtFns c va ra) (hS : ExtStill c) (n m : Nat) (hmain : ∃ e ∈ (src m).entries, fnName e.fn = "main") (hst : Ready c va ra st) :
    run c.resolve n m st = run c.resolve.named n m st := by
  obtain ⟨hs, hw⟩ := modules_ok hl hg
  have hbc : c.byName = false := by obtain ⟨mods, _, rfl⟩ := hl; exact hb
  exact C24_run_partial hbc hE hS hw hs n m (hl.has hmain) hst

/-- **C23.** A plain program whose files the checker accepts leaves all stacks as they were. -/
theorem C23_text_partial (hl : Loads base src c) (hg : Fine va ra src) (hE : ExtFns c va ra)
    (hi : ClosuresWF c.resolve va ra st) {n m : Nat} {s : St} (h : run c.resolve n m st = .ok () s) : Same st s :=
  C23_run (extFns_resolve hE) (modulesWF_resolve (modules_ok hl hg).2) hi h

end

/-! ## An example -/

namespace RunDemo

open Check.TextDemo (v letv call)

/-- `a + b` -/
def plus (a b : Src) : Src := .add (.mk (.plain a) []) [(.add, .mk (.plain b) [])]

/-- `fn twice(x) -> { y := x  return y + x }` -/
def twice : FnSrc :=
  { name := "twice", args := [{ name := "x" }],
    body := .returns none [letv "y" (v "x"), .ret (plus (v "y") (v "x"))] [] }

/-- `n::twice(x)` -/
def twiceOf (x : Src) : Src := .call (.plain (some "n") "twice" [x])

/-- ```
fn main() {
    a := clone(2)
    for i 3, j 2 { b := n::twice(a)  a = b + j }
    t := [[2]]
    for p, q { s := n::twice(t[p][q]) }
    f := \(y) = y + (grab a)
    if true { c := \f(a)  clear(mut c) } else { push(mut a, i32) }
}
``` -/
def main : FnSrc :=
  { name := "main", args := [],
    body := .block
      [letv "a" (call "clone" [.num (F64.ofNat 2)]),
       .forN .forN none [.upto "i" (.num (F64.ofNat 3)), .upto "j" (.num (F64.ofNat 2))]
         [letv "b" (twiceOf (v "a")), .assign (v "a") .set (plus (v "b") (v "j"))],
       letv "t" (.array [.array [.num (F64.ofNat 2)]]),
       .forN .forN none [.plain "p", .plain "q"]
         [letv "s" (twiceOf (.item (.mk false "t" false [.expr (v "p") false, .expr (v "q") false])))],
       letv "f" (.closure [{ name := "y" }] [] (plus (v "y") (.grab none (v "a")))),
       .ite (.bool true) [letv "c" (.callClosure (.mk false "f" false []) [v "a"]),
         call "clear" [.mutItem (.mk false "c" false [])]] [] (some [v "a"])] [] }

/-- The functions of the host. -/
def table : List Mod.External :=
  [⟨[], "clone", .ret (lib .clone), ⟨[], [], .any, [], []⟩⟩, ⟨[], "add", .binop 6, ⟨[], [], .any, [], []⟩⟩,
   ⟨[], "clear(mut)", .void (lib .clear), ⟨[], [], .any, [], []⟩⟩, ⟨[], "len", .unop 3, ⟨[], [], .any, [], []⟩⟩]

/-- `ns num` and `twice` -/
def numFile : FileSrc := { ns := some ["num"], fns := [twice] }

/-- `use num as n` and `main` -/
def mainFile : FileSrc := { uses := some [⟨["num"], [], "n"⟩], fns := [main] }

/-- A module with the first file, imported by the module into which the second file is loaded. -/
def text (m : Nat) : ModSrc :=
  if m = 0 then .load (.imports (.host table) (.load (.host table) "num.dyon" numFile)) "main.dyon" mainFile else .host []

section
variable [FloatOps] [Data.Lex] [VecMath]

/-- The host. -/
def host : ECfg := stdCfg (fun _ _ => "value") 100 (fun _ => [])

theorem converts (m : Nat) : ∃ L, (text m).build = .ok L := by
  unfold text
  split
  · exact ⟨_, rfl⟩
  · exact ⟨_, rfl⟩

/-- The loaded program. -/
noncomputable def program : ECfg := host.withModules fun m => (converts m).choose

theorem loads : Loads host text program := ⟨_, fun m => (converts m).choose_spec, rfl⟩

/-- The functions of the program. -/
theorem entries : ∃ C1 C2, (text 0).entries = [⟨["num"], "num.dyon", twice, C1⟩, ⟨[], "main.dyon", main, C2⟩] ∧
    C1 none "add" = .host ⟨[], "add", .binop 6, ⟨[], [], .any, [], []⟩⟩ false ∧
    C2 none "add" = .host ⟨[], "add", .binop 6, ⟨[], [], .any, [], []⟩⟩ false ∧
    C2 none "clone" = .host ⟨[], "clone", .ret (lib .clone), ⟨[], [], .any, [], []⟩⟩ false ∧
    C2 none "clear(mut)" = .host ⟨[], "clear(mut)", .void (lib .clear), ⟨[], [], .any, [], []⟩⟩ false ∧
    C2 none "len" = .host ⟨[], "len", .unop 3, ⟨[], [], .any, [], []⟩⟩ false ∧
    C2 (some "n") "twice" = .own 0 := by
  have h1 : fnName main = "main" := rfl
  have h2 : fnName twice = "twice" := rfl
  refine ⟨_, _, rfl, ?_⟩
  simp [h1, h2, Front.Spec.plainTarget, Front.Spec.importedTarget, lastIdx, table, Front.Spec.shift, mainFile, numFile,
    ModSrc.hosts, Front.Spec.joinHosts, Front.Spec.behind, Mod.Spec.imported, Mod.Spec.listed, Mod.Spec.globs, Mod.Spec.oneOf,
    Mod.Spec.first, List.findIdx?_cons, ModSrc.parts, Front.fileEntries]

omit [VecMath] in
theorem accepts_fns {fs : List FnSrc} (hs : fs = [twice] ∨ fs = [main]) : Accepts fs := by
  obtain ⟨ts, h⟩ : ∃ ts, Check.built (fs.map FnSrc.tree) = .ok ts := by rcases hs with rfl | rfl <;> exact ⟨_, rfl⟩
  obtain ⟨ns', h'⟩ := (Check.C69_stored_partial fs
    (by rcases hs with rfl | rfl <;> simp [twice, main, Check.Spec.sigs]) h).2 (by
      intro f hf
      have hf : f = twice ∨ f = main := by rcases hs with rfl | rfl <;> simp at hf <;> simp [hf]
      rcases hf with rfl | rfl <;>
      simp [twice, main, plus, twiceOf, fitsFn, Check.Spec.fitsBody, Check.Spec.fnScope, Check.Spec.fitsSeq, Check.Spec.fits,
        letv, v,
        call, Check.Spec.fitsItem, Check.Spec.fitsIds, Check.Spec.isVar, Check.Spec.plainItem, Check.Spec.usable,
        Check.Spec.seen, Check.Spec.itemName, Check.Spec.after, Check.Spec.afters, Check.Spec.declared, Check.Spec.leftName,
        Check.Spec.fitsCallee, Check.Spec.fitsProd, Check.Spec.fitsOpd, Check.Spec.fitsMul, Check.Spec.fitsAdd,
        Check.Spec.grabLevel, Check.Spec.fitsVars, Check.Spec.ranges, Check.Spec.varNames, Check.Spec.fitsElifs,
        Check.Spec.fitsElse])
  exact ⟨ts, ns', h, h'⟩

theorem files {m : Nat} {f : FileSrc} (h : f ∈ (text m).files) : f.fns = [twice] ∨ f.fns = [main] := by
  unfold text at h
  split at h
  · simp only [ModSrc.files, List.nil_append, List.cons_append, List.mem_cons, List.not_mem_nil, or_false] at h
    rcases h with rfl | rfl
    · exact .inl rfl
    · exact .inr rfl
  · cases h

/-- The converted loops over `p` and `q`. -/
theorem outside_q (C : String → Called) (hC : C "len" = .op) : rangeOutside C "q" []
    [letv "s" (twiceOf (.item (.mk false "t" false [.expr (v "p") false, .expr (v "q") false])))] := by
  refine ⟨by rw [hC]; trivial, fun file k label list inside h => ?_⟩
  cases h
  refine ⟨["t", "p"], rfl, ?_⟩
  simp [innerAll, inner, innerItem, innerIds, Front.Spec.app, declName, Item.ids, Item.name]

theorem outside_p (C : String → Called) (hC : C "len" = .op) : rangeOutside C "p" [.plain "q"]
    [letv "s" (twiceOf (.item (.mk false "t" false [.expr (v "p") false, .expr (v "q") false])))] := by
  refine ⟨by rw [hC]; trivial, fun file k label list inside h => ?_⟩
  cases h
  refine ⟨["t"], rfl, ?_⟩
  simp [innerAll, inner, innerItem, innerIds, innerOpt, Front.Spec.app, declName, Item.ids, Item.name, Syn.truncItem]

theorem twice_plain {C : String → Called} (h : C "add" = .op) : plainFn C twice := by
  simp [twice, h, plus, twiceOf, plainFn, plainBody, plainSeq, plain, letv, v, call, freshCurrents, plainVars, plainIt, plainIds,
    plainCallee, plainProd, plainAdd, plainMul, plainOpd, plainElifs, plainElse, plainAll, plainComps, isComp, place,
    newVar, isOp, fitCall, Check.Spec.declared, Check.Spec.leftName, Check.Spec.itemName, Check.Spec.varNames,
    Check.Spec.plainItem, Check.Spec.grabLevel, calleeName, calleeArgs, comps, compsProd, compsOpd, behind, opens, gives,
    Syn.callName, Front.Spec.inside, Front.Spec.bare, Front.Spec.nameWith, Front.Spec.isMut, width]

theorem main_plain {C : String → Called} (h1 : C "add" = .op) (h2 : C "clone" = .host 1 true)
    (h3 : C "clear(mut)" = .host 1 false) (h4 : C "len" = .op) (h5 : C "n::twice" = .own 1 true) : plainFn C main := by
  simp [main, h1, h2, h3, h4, h5, plus, twiceOf, plainFn, plainBody, plainSeq, plain, letv, v, call, freshCurrents, plainVars, plainIt, plainIds,
    plainCallee, plainProd, plainAdd, plainMul, plainOpd, plainElifs, plainElse, plainAll, plainComps, isComp, place,
    newVar, isOp, fitCall, Check.Spec.declared, Check.Spec.leftName, Check.Spec.itemName, Check.Spec.varNames,
    Check.Spec.plainItem, Check.Spec.grabLevel, calleeName, calleeArgs, comps, compsProd, compsOpd, behind, opens, gives,
    Syn.callName, Front.Spec.inside, Front.Spec.bare, Front.Spec.nameWith, Front.Spec.isMut, width]
  exact ⟨outside_p _ h4, outside_q _ h4⟩

theorem fine : Fine libArity libArity text := by
  refine ⟨fun m f hf g hg => ?_, fun m f hf => accepts_fns (files hf), fun m e he => ?_, fun m x hx => ?_⟩
  · rcases files hf with h | h <;> rw [h] at hg <;> rw [List.mem_singleton.1 hg] <;> simp [twice, main, Check.Spec.sigs]
  · by_cases h0 : m = 0
    · subst h0
      obtain ⟨C1, C2, hes, h1, h2, h3, h4, h5, h6⟩ := entries
      rw [hes] at he ⊢
      have s1 := Front.siteOf_plain (n := "add") (by decide +kernel)
      have s2 := Front.siteOf_plain (n := "clone") (by decide +kernel)
      have s3 := Front.siteOf_plain (n := "clear(mut)") (by decide +kernel)
      have s4 := Front.siteOf_plain (n := "len") (by decide +kernel)
      have s5 := Front.siteOf_alias (a := "n") (n := "twice") (by decide +kernel)
      have e5 : Front.aliased (some "n") "twice" = "n::twice" := by decide +kernel
      simp only [e5, show ∀ n, Front.aliased none n = n from fun _ => rfl] at s1 s2 s3 s4 s5
      simp only [List.mem_cons, List.not_mem_nil, or_false] at he
      have a3 : libArity (lib .clear) = 1 := rfl
      have a4 : libArity (lib .clone) = 1 := rfl
      rcases he with rfl | rfl
      · exact twice_plain (by simp [Front.Entry.target, s1, h1, calledAs])
      · exact main_plain (by simp [Front.Entry.target, s1, h2, calledAs]) (by simp [Front.Entry.target, s2, h3, calledAs, a4])
          (by simp [Front.Entry.target, s3, h4, calledAs, a3]) (by simp [Front.Entry.target, s4, h5, calledAs])
          (by simp [Front.Entry.target, s5, h6, calledAs, twice, Front.Spec.returns])
    · simp [text, h0, ModSrc.entries, ModSrc.parts] at he
  · unfold text at hx
    split at hx
    · simp only [added, List.mem_append, or_self, table, List.mem_cons, List.not_mem_nil, or_false] at hx
      rcases hx with rfl | rfl | rfl | rfl <;> simp
    · cases hx

theorem ext : ExtFns program libArity libArity := libExtFns _ _ _ rfl rfl

theorem still : ExtStill program := ⟨(Demo.still []).void, (Demo.still []).ret⟩

theorem main_there : ∃ e ∈ (text 0).entries, fnName e.fn = "main" := by
  obtain ⟨C1, C2, h, -⟩ := entries
  rw [h]
  exact ⟨_, List.mem_cons_of_mem _ List.mem_cons_self, rfl⟩

theorem twice_there : ∃ e ∈ (text 0).entries, fnName e.fn = "twice" := by
  obtain ⟨C1, C2, h, -⟩ := entries
  rw [h]
  exact ⟨_, List.mem_cons_self, rfl⟩

/-- The hypotheses of `C69_variables_exist_partial` are met. -/
example (n : Nat) (msg : String) :
    run (stopping program.resolve msg) n 0 Demo.empty = run program.resolve n 0 Demo.empty :=
  (C69_variables_exist_partial loads fine rfl ext still n 0 main_there (.empty rfl rfl) msg).1

/-- The hypotheses of `C24_text_partial` are met. -/
example (n : Nat) : run program.resolve n 0 Demo.empty = run program.resolve.named n 0 Demo.empty :=
  C24_text_partial loads fine rfl ext still n 0 main_there (.empty rfl rfl)

/-- The hypotheses of `C69_session_partial` are met: `twice(true)`, then `main()`. -/
example (n : Nat) (msg : String) :
    let calls : List HostCall := [⟨true, "twice", [.bool true none]⟩, ⟨false, "main", []⟩]
    session (stopping program.resolve msg) n 0 calls Demo.empty = session program.resolve n 0 calls Demo.empty := by
  refine (C69_session_partial loads fine rfl ext still n 0 _ ?_ ?_ (.empty rfl rfl) msg).1
  · intro h hh
    simp only [List.mem_cons, List.not_mem_nil, or_false] at hh
    rcases hh with rfl | rfl
    · exact twice_there
    · exact main_there
  · intro h hh f hf hn
    simp only [List.mem_cons, List.not_mem_nil, or_false] at hh
    obtain ⟨C1, C2, he, -⟩ := entries
    simp only [he, List.mem_cons, List.not_mem_nil, or_false] at hf
    have h1 : fnName main = "main" := rfl
    have h2 : fnName twice = "twice" := rfl
    rcases hh with rfl | rfl <;> rcases hf with rfl | rfl <;> simp_all [twice, main]

/-- The hypotheses of `C23_text_partial` are met. -/
example (n : Nat) (s : St) (h : run program.resolve n 0 Demo.empty = .ok () s) : Same Demo.empty s :=
  C23_text_partial loads fine ext (Ready.empty rfl rfl : Ready program libArity libArity Demo.empty).wf h

/-- A program of one file. -/
def ofFile (fs : List FnSrc) : ECfg :=
  match (ModSrc.load (.host table) "demo.dyon" { fns := fs }).build with
  | .ok m => host.withModules fun _ => m
  | .error _ => host

/-- **Finding (C69).** `fn main() { for i [i, i) { } }`, which the checker accepts (`C69_own_count_accepted`) and which is
not plain, gets to a variable that is not there. -/
theorem C69_own_count_stops (msg : String) :
    run (stopping (ofFile [Check.TextDemo.fn [] [Check.TextDemo.ownCount]]).resolve msg) 10 0
      Demo.empty = .panic msg := rfl

/-- `fn main() { for i { a := [1]  b := a[i] } }` -/
def listInside : FnSrc := Check.TextDemo.fn [] [.forN .forN none [.plain "i"]
  [letv "a" (.array [.num (F64.ofNat 1)]), letv "b" (.item (.mk false "a" false [.expr (v "i") false]))]]

/-- **Finding (C69).** The checker accepts a loop over the length of a list that is declared in the loop; the list is not
there when the loop starts. -/
theorem C69_list_inside_stops (msg : String) : Accepts [listInside] ∧
    run (stopping (ofFile [listInside]).resolve msg) 10 0 Demo.empty = .panic msg := by
  refine ⟨Check.TextDemo.accepted ⟨_, rfl⟩ rfl ?_, rfl⟩
  simp [listInside, Check.TextDemo.fn, fitsFn, Check.Spec.fitsBody, Check.Spec.fnScope, Check.Spec.fitsSeq, Check.Spec.fits, letv,
    v, Check.Spec.fitsItem, Check.Spec.fitsIds, Check.Spec.isVar, Check.Spec.plainItem, Check.Spec.usable, Check.Spec.itemName,
    Check.Spec.seen, Check.Spec.fitsVars, Check.Spec.varNames, Check.Spec.ranges, Check.Spec.afters, Check.Spec.after,
    Check.Spec.declared, Check.Spec.leftName]

/-- `fn main() { x := return }` -/
def noResult : FnSrc := Check.TextDemo.fn [] [letv "x" (v "return")]

/-- `fn main() { f := \() = { for i 3 { x := grab i } } }` -/
def grabLoop : FnSrc := Check.TextDemo.fn [] [letv "f" (.closure [] [] (.block
  [.forN .forN none [.upto "i" (.num (F64.ofNat 3))] [letv "x" (.grab none (v "i"))]]))]

/-- **Finding (C69).** The checker accepts that `return` is read in a function that gives nothing back; the variable is not
there. -/
theorem C69_no_result_stops (msg : String) : Accepts [noResult] ∧
    run (stopping (ofFile [noResult]).resolve msg) 10 0 Demo.empty = .panic msg := by
  refine ⟨Check.TextDemo.accepted ⟨_, rfl⟩ rfl ?_, rfl⟩
  simp [noResult, Check.TextDemo.fn, fitsFn, Check.Spec.fitsBody, Check.Spec.fnScope, Check.Spec.fitsSeq, Check.Spec.fits, letv,
    v, Check.Spec.fitsItem, Check.Spec.fitsIds, Check.Spec.isVar, Check.Spec.plainItem, Check.Spec.usable, Check.Spec.itemName]

/-- **Finding (C69).** The checker accepts that a closure grabs the variable of a loop inside of it, which is not there when
the closure is made. -/
theorem C69_grab_loop_stops (msg : String) : Accepts [grabLoop] ∧
    run (stopping (ofFile [grabLoop]).resolve msg) 10 0 Demo.empty = .panic msg := by
  refine ⟨Check.TextDemo.accepted ⟨_, rfl⟩ rfl ?_, rfl⟩
  simp [grabLoop, Check.TextDemo.fn, fitsFn, Check.Spec.fitsBody, Check.Spec.fnScope, Check.Spec.fitsSeq, Check.Spec.fits, letv,
    v, Check.Spec.fitsItem, Check.Spec.fitsIds, Check.Spec.isVar, Check.Spec.plainItem, Check.Spec.usable, Check.Spec.itemName,
    Check.Spec.seen, Check.Spec.fitsVars, Check.Spec.varNames, Check.Spec.ranges, Check.Spec.afters, Check.Spec.after,
    Check.Spec.declared, Check.Spec.leftName, Check.Spec.grabLevel]

end
end RunDemo
end Dyon.Plain
