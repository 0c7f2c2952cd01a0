import Verif.Syntax.PrintRead

/-!
# C39: printed expressions parse back

Printing an expression and parsing the text gives the expression, without what linking added
to it, for the expressions of `Spec.Good`.  The conditions of `Spec.Good` on operands are
needed: the second half of this file shows, for each of them, two different expressions that
are printed the same.
-/

namespace Dyon.Syn

open Spec

theorem good_head {e : Expr} (h : Good e) : Heads (printE e) fun t => ∀ k, t ≠ .level k := by
  induction h with
  | const v _ => exact ⟨_, _, by simp only [printE]; rfl, by simp⟩
  | item name sid cur ids tr _ _ _ =>
    cases cur <;> exact ⟨_, _, by simp only [printE, printItem]; rfl, by simp⟩
  | callClosure => exact ⟨_, _, by simp only [printE]; rfl, by simp⟩
  | array es => exact ⟨_, _, by simp only [printE]; rfl, by simp⟩
  | vec4 shown m _ _ _ hlast =>
    rw [print_vec shown m hlast]
    unfold vecToks
    split <;> exact ⟨_, _, rfl, by simp⟩
  | grab l e => exact ⟨_, _, by simp only [printE]; rfl, by simp⟩
  | tryExpr e => exact ⟨_, _, by simp only [printE]; rfl, by simp⟩
  | try_ e _ _ ih =>
    simp only [printE]
    exact ih.append _
  | norm f e => exact ⟨.bar, _, by simp [printE, printAll, callToks]; rfl, by simp⟩
  | not f e => exact ⟨.bang, _, by simp [printE, printAll, callToks]; rfl, by simp⟩
  | neg f e => exact ⟨.bin .sub, _, by simp [printE, printAll, callToks]; rfl, by simp⟩
  | bin f op l r _ _ _ _ ihl _ =>
    rw [print_bin]
    refine Heads.append ?_ _
    unfold paren
    split
    · exact ⟨_, _, rfl, by simp⟩
    · exact ihl
  | call f name args hp =>
    rw [print_call hp]
    exact ⟨_, _, rfl, by simp⟩

/-- The induction: how a good expression is read, and that a `?` behind it may follow. -/
theorem good_reads {e : Expr} (h : Good e) :
    Reads e ∧ (Tryable e → ∀ rest, Ev fun n => gItems n (printE e ++ rest) = some (unlinked e, rest)) := by
  induction h with
  | const v hv =>
    refine ⟨?_, fun h => h.elim⟩
    refine Reads.ofItems rfl ⟨_, _, by simp only [printE]; rfl, by simp, by simp⟩ fun rest _ => ?_
    exact Ev.succ (Ev.of fun n => by simp [printE, gItems, unlinked])
  | item name sid cur ids tr ht _ hl ih =>
    refine ⟨?_, fun h => h.elim⟩
    refine Reads.ofItems rfl ?_ fun rest hr =>
      gItems_item name sid cur ids tr ht (fun e he => (ih e he).1.E) hl (fun e he => head_ne (ih e he).1) rest hr
    cases cur <;> exact ⟨_, _, by simp only [printE, printItem]; rfl, by simp, by simp⟩
  | callClosure name sid cur ids tr args ht _ hl _ ih iha =>
    have hI := gItems_callClosure name sid cur ids tr args ht (fun e he => (ih e he).1.E) hl
      (fun e he => head_ne (ih e he).1) (fun a ha => (iha a ha).1.E)
    exact ⟨Reads.ofItems rfl ⟨_, _, by simp only [printE]; rfl, by simp, by simp⟩ fun rest _ => hI rest, fun _ => hI⟩
  | array es _ ih =>
    refine ⟨?_, fun h => h.elim⟩
    have hA : ∀ rest, Ev fun n => gArr n (commas (printAll es) ++ .rb :: rest) = some (unlinked (.array es), rest) := by
      intro rest
      refine (reads_sep es (fun e he => (ih e he).1.E) (t := .rb) (Or.inr rfl) rest).step fun n hn => ?_
      simp only [gArr, hn, unlinked]
    have hp : ∀ rest, printE (.array es) ++ rest = .lb :: (commas (printAll es) ++ .rb :: rest) := by
      intro rest; simp [printE]
    refine Reads.closed rfl ?_ ⟨_, _, by simp only [printE]; rfl, by simp, fun _ => trivial⟩ ?_
    · intro rest hr
      rw [hp]
      refine (hA rest).step fun n hn => ?_
      simp only [gL, hn]
      exact gTry_stop hr
    · intro _ rest hr
      rw [hp]
      refine (hA rest).step fun n hn => ?_
      simp only [gExpr, hn]
      exact gTry_stop hr
  | vec4 shown m hlen hne _ hlast ih =>
    have hI := gItems_vec shown m hlen hne (fun e he => (ih e he).1.E) hlast
    refine ⟨Reads.ofItems rfl ?_ fun rest _ => hI rest, fun _ => hI⟩
    rw [print_vec shown m hlast]
    unfold vecToks
    split <;> exact ⟨_, _, rfl, by simp, by simp⟩
  | grab l e hg ih =>
    have hI := gItems_grab l e (head_ne ih.1) (by
      intro k ts hc
      obtain ⟨t, us, ht, hk⟩ := good_head hg
      rw [hc] at ht
      exact hk k (List.cons.inj ht).1.symm) ih.1.E
    exact ⟨Reads.ofItems rfl ⟨_, _, by simp only [printE]; rfl, by simp, by simp⟩ fun rest _ => hI rest, fun _ => hI⟩
  | tryExpr e _ ih =>
    have hI := gItems_tryExpr e ih.1.E
    exact ⟨Reads.ofItems rfl ⟨_, _, by simp only [printE]; rfl, by simp, by simp⟩ fun rest _ => hI rest, fun _ => hI⟩
  | try_ e hg ht ih =>
    refine ⟨?_, fun h => h.elim⟩
    have hl := tryable_level ht
    have hna : ¬ isArr e := by cases e <;> first | exact ht.elim | exact id
    have hh : Heads (printE e) fun t => t ≠ .bin .sub ∧ t ≠ .lb :=
      ih.1.head.imp fun t h => ⟨fun hc => absurd (h.2 hc) (by omega), fun hc => hna (h.1 hc)⟩
    have hp : printE (.try_ e) = printE e ++ [.quest] := by simp only [printE]
    refine Reads.closed rfl ?_ ?_ fun h => h.elim
    · rw [hp]
      exact ReadsL.quest (hh.imp fun t h => h.2) (ih.2 ht)
    · rw [hp]
      exact (hh.append _).imp fun t h => ⟨h.1, fun hc => absurd hc h.2⟩
  | norm f e _ ih =>
    have hI := gItems_norm f e ih.1.E
    refine ⟨Reads.ofItems rfl ⟨.bar, _, by simp [printE, printAll, callToks]; rfl, by simp, by simp⟩ fun rest _ => hI rest,
      fun _ => hI⟩
  | not f e _ hl ih =>
    refine ⟨reads_not f e (ih.1.L hl), fun h => ?_⟩
    rcases h with h | h
    · exact absurd rfl (h.1 rfl).2.1
    · exact absurd h.1 (by decide)
  | neg f e _ hl ih =>
    refine ⟨reads_neg f e (ih.1.M hl), fun h => ?_⟩
    rcases h with h | h
    · exact absurd rfl (h.1 rfl).2.2
    · exact absurd h.1 (by decide)
  | bin f op l r _ _ hl hr ihl ihr =>
    refine ⟨reads_bin f op l r ihl.1 ihr.1 hl hr, fun h => ?_⟩
    rcases h with h | h
    · have := h.2 rfl
      rw [opNamed_callName] at this
      cases this
    · exact absurd h.2 (by simp)
  | call f name args hp _ ih =>
    have hI := gItems_call f name args hp fun a ha => (ih a ha).1.E
    refine ⟨Reads.ofItems (level_plain hp) ?_ fun rest _ => hI rest, fun _ => hI⟩
    rw [print_call hp]
    exact ⟨_, _, rfl, by simp, by simp⟩

/-- **C39** (partial).  The printed text of a good expression parses, as a whole, to the
expression.  Missing: objects, blocks, loops, `if`, assignments, swizzles, matrices,
closures, links and `return` inside the expression; that the characters are cut into these
tokens; and the expressions that are not good, for most of which it is false (below). -/
theorem C39_round_trip_partial (e : Expr) (h : Good e) :
    ∃ N, ∀ n, N ≤ n → gExpr n (printE e) = some (unlinked e, []) := by
  obtain ⟨N, hN⟩ := (good_reads h).1.E [] trivial
  exact ⟨N, fun n hn => by simpa using hN n hn⟩

/-- With more fuel a parse does not change, so that the theorem speaks about *the* result:
two good expressions printed alike are the same up to linking. -/
theorem C39_injective_partial (a b : Expr) (ha : Good a) (hb : Good b) (h : printE a = printE b) :
    unlinked a = unlinked b := by
  obtain ⟨N, hN⟩ := C39_round_trip_partial a ha
  obtain ⟨M, hM⟩ := C39_round_trip_partial b hb
  have h1 := hN (max N M) (by omega)
  have h2 := hM (max N M) (by omega)
  rw [h, h2] at h1
  simpa using h1.symm

/-! ## Arithmetic -/

/-- How the printer is told that a call is an operator: the functions the operators are linked
to, and calls that are not linked. -/
inductive OpIndex : FnIndex → Prop
  | none : OpIndex .none
  | binop (f : Nat) : OpIndex (.binop f)
  | lazy (f : Nat) (l : List (List Lazy)) : OpIndex (.lazy f l)
  | ret (f : Nat) : OpIndex (.ret f)

/-- Terms of any shape over variables, literals and calls with operators that are no comparisons:
any operand may be any term. -/
inductive Arith : Expr → Prop
  | const (v : Val) : Literal v → Arith (.const v)
  | var (name : String) (sid : Option Nat) (cur : Bool) : Arith (.item (.mk name sid cur false [] []))
  | call (f : FnIndex) (name : String) (args : List Expr) : PlainCall name args →
      (∀ a ∈ args, Arith a) → Arith (.call f name args)
  | bin (f : FnIndex) (op : BinOp) (l r : Expr) : OpIndex f →
      op ∈ [.add, .sub, .mul, .div, .rem, .pow, .dot, .cross, .andAlso, .orElse] →
      Arith l → Arith r → Arith (.call f (callName op) [l, r])

theorem Arith.operand {e : Expr} (h : Arith e) :
    ¬ isArr e ∧ ¬ isNeg e ∧ ¬ endsNeg e ∧ (level e = 4 ∨ ∃ q, operandOp e = some q ∧ level e = precedence q) := by
  induction h with
  | const v _ => exact ⟨id, id, id, .inl rfl⟩
  | var name sid cur => exact ⟨id, id, id, .inl rfl⟩
  | call f name args hp _ ih =>
    refine ⟨id, ?_, ?_, .inl (level_plain hp)⟩
    · intro h
      match args, h with
      | [_], h => exact (hp.1 rfl).2.2 h
    · intro h
      match args, h with
      | [_], h => exact (hp.1 rfl).2.2 h
      | [_, r], h => exact (ih r (by simp)).2.1 h
  | bin f op l r hf _ _ _ _ ihr =>
    refine ⟨id, id, ihr.2.1, .inr ⟨op, ?_, level_bin f op l r⟩⟩
    cases hf <;> simp [operandOp, standardBinop, opNamed_callName]

theorem precedence_term {op : BinOp} (h : op ∈ [BinOp.add, .sub, .mul, .div, .rem, .pow, .dot, .cross, .andAlso, .orElse]) :
    precedence op = 1 ∨ precedence op = 2 ∨ precedence op = 3 := by
  revert h
  cases op <;> decide

theorem Arith.good {e : Expr} (h : Arith e) : Good e := by
  induction h with
  | const v hv => exact .const v hv
  | var name sid cur => exact .item name sid cur [] [] rfl (by simp) (by simp)
  | call f name args hp _ ih => exact .call f name args hp ih
  | bin f op l r hf hop hl hr ihl ihr =>
    obtain ⟨l1, l2, l3, l4⟩ := hl.operand
    obtain ⟨r1, r2, r3, r4⟩ := hr.operand
    refine .bin f op l r ihl ihr ?_ ?_
    · rcases l4 with l4 | ⟨q, hq, l4⟩
      · right
        refine ⟨l1, ?_⟩
        rw [l4]
        rcases precedence_term hop with h | h | h <;> simp [h, l3]
      · unfold LeftOk needsParens
        rw [hq, l4]
        rcases precedence_term hop with h | h | h <;>
          rcases (show precedence q = 0 ∨ precedence q = 1 ∨ precedence q = 2 ∨ precedence q = 3 by cases q <;> decide) with
            h' | h' | h' | h' <;> simp [h, h', precParens, l1, l3]
    · rcases r4 with r4 | ⟨q, hq, r4⟩
      · right
        rw [r4]
        rcases precedence_term hop with h | h | h <;> simp [h]
      · unfold RightOk needsParens
        rw [hq, r4]
        rcases precedence_term hop with h | h | h <;>
          rcases (show precedence q = 0 ∨ precedence q = 1 ∨ precedence q = 2 ∨ precedence q = 3 by cases q <;> decide) with
            h' | h' | h' | h' <;> simp [h, h', precParens]

/-- **C39** (partial).  Whatever the shape of a term, its parentheses are printed where they are
needed: the text parses back to the term. -/
theorem C39_arith_partial (e : Expr) (h : Arith e) :
    ∃ N, ∀ n, N ≤ n → gExpr n (printE e) = some (unlinked e, []) :=
  C39_round_trip_partial e h.good

/-! ## Examples -/

/-- A variable. -/
def var (x : String) : Expr := .item (.mk x none false false [] [])

theorem good_var (x : String) : Good (var x) :=
  .item x none false [] [] rfl (by simp) (by simp)

/-- `n < (a + b) * c - -d ^ f(e, |v|)` meets the hypothesis. -/
example : Good (.call .none "less"
    [var "n", .call .none "sub" [.call .none "mul" [.call .none "add" [var "a", var "b"], var "c"],
      .call .none "neg" [.call .none "pow" [var "d", .call .none "f" [var "e", .call .none "norm" [var "v"]]]]]]) := by
  have v := good_var
  refine .bin .none .less _ _ (v _) ?_ (Or.inr ⟨id, by simp [precedence, level, var, opNamed]⟩) (Or.inr (by simp [precedence, level, var, opNamed]))
  refine .bin .none .sub _ _ ?_ ?_ (Or.inr ⟨id, by simp [precedence, level, var, opNamed]⟩) (Or.inr (by simp [precedence, level, var, opNamed]))
  · refine .bin .none .mul _ _ ?_ (v _) (Or.inl (by decide)) (Or.inr (Or.inr (Or.inl ⟨by decide, Or.inl (by decide)⟩)))
    exact .bin .none .add _ _ (v _) (v _) (Or.inr ⟨id, by simp [precedence, level, var, opNamed]⟩) (Or.inr (by simp [precedence, level, var, opNamed]))
  · refine .neg _ _ ?_ (by decide)
    refine .bin .none .pow _ _ (v _) ?_ (Or.inr ⟨id, by simp [precedence, level, var, opNamed]⟩) (Or.inr (by simp [precedence, level, var, opNamed]))
    refine .call _ _ _ ⟨by simp, fun _ => rfl⟩ ?_
    intro a ha
    simp only [List.mem_cons, List.not_mem_nil, or_false] at ha
    rcases ha with rfl | rfl
    · exact v _
    · exact .norm _ _ (v _)

/-- `a - (b - (c + 1) ^ (d * e))` meets the hypothesis of `C39_arith_partial`. -/
example : Arith (.call .none "sub" [var "a", .call .none "sub" [var "b", .call .none "pow"
    [.call .none "add" [var "c", .const (.f64 (F64.ofNat 1) none)], .call .none "mul" [var "d", var "e"]]]]) := by
  have v : ∀ x, Arith (var x) := fun x => .var x none false
  exact .bin _ .sub _ _ .none (by decide) (v _) (.bin _ .sub _ _ .none (by decide) (v _)
    (.bin _ .pow _ _ .none (by decide) (.bin _ .add _ _ .none (by decide) (v _) (.const _ (show BitVec.msb _ = false by decide)))
      (.bin _ .mul _ _ .none (by decide) (v _) (v _))))

/-- What is printed for it: `n < (a + b) * c - -d ^ f(e, |v|)`. -/
example : printE (.call .none "less"
    [var "n", .call .none "sub" [.call .none "mul" [.call .none "add" [var "a", var "b"], var "c"],
      .call .none "neg" [.call .none "pow" [var "d", .call .none "f" [var "e", .call .none "norm" [var "v"]]]]]]) =
    [.name "n", .bin .less, .lp, .name "a", .bin .add, .name "b", .rp, .bin .mul, .name "c", .bin .sub,
     .bin .sub, .name "d", .bin .pow, .name "f", .lp, .name "e", .comma, .bar, .name "v", .bar, .rp] := rfl

/-! ## Findings: different expressions printed the same -/

/-- `-(a + b)` is printed as `-a + b`, which is `(-a) + b`. -/
theorem C39_neg_of_sum (a b : Expr) :
    printE (.call .none "neg" [.call .none "add" [a, b]]) =
      [.bin .sub] ++ printE (.call .none "add" [a, b]) ∧
    printE (.call .none "neg" [.call .none "add" [var "a", var "b"]]) =
      printE (.call .none "add" [.call .none "neg" [var "a"], var "b"]) := ⟨by simp [printE, printAll, callToks], rfl⟩

/-- `(-a) ^ b` is printed as `-a ^ b`, which is `-(a ^ b)`. -/
theorem C39_pow_of_neg :
    printE (.call .none "pow" [.call .none "neg" [var "a"], var "b"]) =
      printE (.call .none "neg" [.call .none "pow" [var "a", var "b"]]) := rfl

/-- `(-a) * b` is printed as `-a * b`, which is `-(a * b)`. -/
theorem C39_mul_of_neg :
    printE (.call .none "mul" [.call .none "neg" [var "a"], var "b"]) =
      printE (.call .none "neg" [.call .none "mul" [var "a", var "b"]]) := rfl

/-- `!(a && b)` is printed as `!a && b`, which is `(!a) && b`. -/
theorem C39_not_of_and :
    printE (.call .none "not" [.call .none "and_also" [var "a", var "b"]]) =
      printE (.call .none "and_also" [.call .none "not" [var "a"], var "b"]) := rfl

/-- `(a == b) == c` is printed as `a == b == c`, which is `a == (b == c)`. -/
theorem C39_chain_of_comparisons :
    printE (.call .none "equal" [.call .none "equal" [var "a", var "b"], var "c"]) =
      printE (.call .none "equal" [var "a", .call .none "equal" [var "b", var "c"]]) := rfl

/-- `(a + b) < c` is printed as `a + b < c`, of which only `a + b` is an expression: the rest
of the text is left over. -/
theorem C39_sum_compared :
    ∃ N, ∀ n, N ≤ n → gExpr n (printE (.call .none "less" [.call .none "add" [var "a", var "b"], var "c"])) =
      some (.call .none "add" [var "a", var "b"], [.bin .less, .name "c"]) := by
  refine ⟨12, fun n hn => ?_⟩
  obtain ⟨m, rfl⟩ : ∃ m, n = m + 12 := ⟨n - 12, by omega⟩
  rfl

/-- A sum that starts with an array literal, `([a]) + b`, is printed as `[a] + b`, of which
only the array is an expression. -/
theorem C39_array_first :
    ∃ N, ∀ n, N ≤ n → gExpr n (printE (.call .none "add" [.array [var "a"], var "b"])) =
      some (.array [var "a"], [.bin .add, .name "b"]) := by
  refine ⟨14, fun n hn => ?_⟩
  obtain ⟨m, rfl⟩ : ∃ m, n = m + 14 := ⟨n - 14, by omega⟩
  rfl

/-- `(a + b)?` is printed as `a + b?`, which is `a + (b?)`. -/
theorem C39_try_of_sum :
    printE (.try_ (.call .none "add" [var "a", .call .none "f" []])) =
      printE (.call .none "add" [var "a", .try_ (.call .none "f" [])]) := rfl

/-- `[a; n]`, an array of `n` times `a`, is printed as `[a, n]`. -/
theorem C39_array_fill (a n : Expr) : printE (.arrayFill a n) = printE (.array [a, n]) := by
  simp [printE, printAll, commas]

/-- The `?` behind a variable is not printed. -/
theorem C39_item_try (x : String) (sid : Option Nat) (cur : Bool) (ids : List Id) (tr : List Nat) :
    printE (.item (.mk x sid cur true ids tr)) = printE (.item (.mk x sid cur false ids tr)) := by
  simp [printE, printItem]

/-- The label of a loop is not printed, so that `break 'outer` in its text has no loop to
leave. -/
theorem C39_labels (init cond step : Expr) (body : List Expr) (k : ForKind) (x : String) (start : Option Expr)
    (stop : Expr) (kin : ForInKind) (iter : Expr) (l l' : Option String) :
    printE (.for_ init cond step body l) = printE (.for_ init cond step body l') ∧
    printE (.forN k x start stop body l) = printE (.forN k x start stop body l') ∧
    printE (.forIn kin x iter body l) = printE (.forIn kin x iter body l') := by
  simp [printE]

/-- The current objects a closure asks for are not printed. -/
theorem C39_closure_currents (args cs cs' : List String) (ret : Bool) (file : String) (e : Expr) :
    printE (.closure args cs ret file e) = printE (.closure args cs' ret file e) := by
  simp [printE]

/-- An empty block is printed as an empty object. -/
theorem C39_empty_block : printE (.block []) = printE (.object []) := rfl

/-- The zero vector is printed as `()`, which is not an expression. -/
theorem C39_zero_vector (n : Nat) :
    printE (.vec4 (List.replicate 4 zeroConst)) = [.lp, .rp] ∧ gExpr n [.lp, .rp] = none := by
  constructor
  · have h := print_vec [] 4 (by simp)
    simp only [List.nil_append] at h
    rw [h]
    rfl
  · refine none_of_items ⟨_, _, rfl, by simp, by simp⟩ (fun n => ?_) n
    have hn : ∀ n, gExpr n [.rp] = none := closes_none (Or.inl rfl) []
    have hv : ∀ n, gVec n [.rp] = none := by
      intro n
      cases n with
      | zero => rfl
      | succ n => simp only [gVec, hn]
    cases n with
    | zero => rfl
    | succ n => simp only [gItems, hv, hn]

end Dyon.Syn
