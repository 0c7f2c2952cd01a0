import Verif.Check.Suggest
import Verif.Check.CallsProps
import Verif.Check.TextProps

/-!
# C82: a refused call is reported with the functions that have a similar name
-/

namespace Dyon.Check

namespace Spec

/-- The name begins with these characters. -/
def Begins (p n : String) : Prop := ∃ t, n.toList = p.toList ++ t

/-- The part of the message that proposes names. -/
def proposal : List String → String
  | [] => ""
  | l => "\n\nDid you mean:\n" ++ String.join (l.map fun n => "- " ++ n ++ "\n")

/-- A function of this name can be called without alias: one of the file, of another module or of the host. -/
inductive Known (env : Env) (ns : Nodes) (n : String) : Prop
  | file {f : Nat} : f < ns.length → (ns.at f).kind = .fn → (ns.at f).name = some n → Known env ns n
  | host {i : Nat} : env.prelude.functions n = some i → Known env ns n

/-- The text proposes exactly the known names that begin with `p`. -/
def Proposes (env : Env) (ns : Nodes) (p text : String) : Prop :=
  ∃ l, text = proposal l ∧ ∀ n, n ∈ l ↔ Known env ns n ∧ Begins p n

/-- What the names begin with that are proposed instead of `name`: it itself; if it has a list of
`mut` and `_`, what is before the list *but for its last character*. -/
inductive Sought : String → String → Prop
  | plain {n : String} : '(' ∉ n.toList → Sought n n
  | marked {n : String} {b rest : List Char} {c : Char} : n.toList = b ++ c :: '(' :: rest → '(' ∉ b → c ≠ '(' →
      Sought n (String.ofList b)

/-- The message says why the call is refused. -/
inductive Says (env : Env) (ns : Nodes) (c : Nat) (text : String) : Prop
  | alias {al n : String} : (ns.at c).alias = some al → (ns.at c).name = some n →
      (∀ i, env.aliases.get al n ≠ some (.loaded i)) →
      text = "Could not find function `" ++ al ++ "::" ++ n ++ "`" → Says env ns c text
  | unknown {n p s : String} : (ns.at c).alias = none → (ns.at c).name = some n → ¬ Known env ns n →
      Sought n p → Proposes env ns p s → text = "Could not find function `" ++ n ++ "`" ++ s → Says env ns c text
  | host {n : String} {d : Mod.Dfn} : (ns.at c).alias = none → (ns.at c).name = some n →
      CallMeans env ns c (.imported d) → d.lts.length ≠ ns.argCount c →
      text = n ++ ": Expected " ++ toString d.lts.length ++ " arguments, found " ++ toString (ns.argCount c) →
      Says env ns c text
  | file {n p s : String} {f : Nat} : (ns.at c).alias = none → (ns.at c).name = some n →
      CallMeans env ns c (.declared f) → (ns.args f).length ≠ ns.argCount c → Sought n p → Proposes env ns p s →
      text = n ++ ": Expected " ++ toString (ns.args f).length ++ " arguments, found " ++ toString (ns.argCount c) ++ s →
      Says env ns c text

/-- The keys of a map, in some order. -/
def Keys {α : Type} (m : Mod.Map α) (l : List String) : Prop := ∀ n, n ∈ l ↔ (m n).isSome

end Spec

open Spec

/-! ## Cutting a text -/

/-- The number of bytes of a text. -/
def bytes (cs : List Char) : Nat := (cs.map Char.utf8Size).sum

theorem bytes_ge : ∀ cs : List Char, cs.length ≤ bytes cs
  | [] => Nat.le_refl _
  | c :: cs => by
    have := bytes_ge cs
    have := Char.utf8Size_pos c
    simp only [bytes, List.map_cons, List.sum_cons, List.length_cons] at *
    omega

theorem bytes_ascii : ∀ {cs : List Char}, (∀ c ∈ cs, c.utf8Size = 1) → bytes cs = cs.length
  | [], _ => rfl
  | c :: cs, h => by
    have h1 := bytes_ascii fun c hc => h c (List.mem_cons_of_mem _ hc)
    have h2 := h c (List.mem_cons_self ..)
    simp only [bytes, List.map_cons, List.sum_cons, List.length_cons] at *
    omega

/-- A text can be cut after `k` bytes exactly if some characters at its start have `k` bytes. -/
theorem sliceTo_iff : ∀ {cs : List Char} {k : Nat} {p : List Char},
    sliceTo cs k = some p ↔ p <+: cs ∧ bytes p = k
  | cs, 0, p => by
    constructor
    · intro h
      cases cs <;> · simp only [sliceTo, Option.some.injEq] at h; subst h; exact ⟨List.nil_prefix, rfl⟩
    · rintro ⟨-, h⟩
      have := bytes_ge p
      have : p = [] := List.length_eq_zero_iff.1 (by omega)
      subst this
      cases cs <;> rfl
  | [], k + 1, p => by
    simp only [sliceTo, List.prefix_nil]
    constructor
    · intro h; cases h
    · rintro ⟨rfl, h⟩; cases h
  | c :: cs, k + 1, p => by
    have hc := Char.utf8Size_pos c
    simp only [sliceTo]
    split
    case isTrue hle =>
      rw [Option.map_eq_some_iff]
      constructor
      · rintro ⟨q, h, rfl⟩
        obtain ⟨h1, h2⟩ := sliceTo_iff.1 h
        refine ⟨List.prefix_cons_inj c |>.2 h1, ?_⟩
        simp only [bytes, List.map_cons, List.sum_cons] at *
        omega
      · rintro ⟨h1, h2⟩
        cases p with
        | nil => cases h2
        | cons x q =>
          obtain ⟨rfl, h3⟩ := List.cons_prefix_cons.1 h1
          refine ⟨q, sliceTo_iff.2 ⟨h3, ?_⟩, rfl⟩
          simp only [bytes, List.map_cons, List.sum_cons] at *
          omega
    case isFalse hle =>
      constructor
      · intro h; cases h
      · rintro ⟨h1, h2⟩
        cases p with
        | nil => cases h2
        | cons x q =>
          obtain ⟨rfl, h3⟩ := List.cons_prefix_cons.1 h1
          simp only [bytes, List.map_cons, List.sum_cons] at *
          omega
termination_by cs => cs.length

/-! ## The name that is looked for -/

theorem paren_idx {b rest : List Char} (h : '(' ∉ b) : (b ++ '(' :: rest).findIdx? (· = '(') = some b.length := by
  induction b with
  | nil => simp [List.findIdx?_cons]
  | cons x b ih =>
    simp only [List.mem_cons, not_or] at h
    have hx : ¬ x = '(' := fun e => h.1 e.symm
    simp [List.findIdx?_cons, hx, ih h.2]

theorem search_plain {n : String} (h : '(' ∉ n.toList) : searchName n = some n := by
  have : n.toList.findIdx? (· = '(') = none := by
    rw [List.findIdx?_eq_none_iff]
    intro x hx
    simp only [decide_eq_false_iff_not]
    rintro rfl
    exact h hx
  simp only [searchName, this]

theorem search_marked {n : String} {b rest : List Char} {c : Char} (e : n.toList = b ++ c :: '(' :: rest)
    (h : '(' ∉ b) (hc : c ≠ '(') : searchName n = (sliceTo n.toList b.length).map String.ofList := by
  have hi : n.toList.findIdx? (· = '(') = some (b.length + 1) := by
    have := paren_idx (b := b ++ [c]) (rest := rest) (by simp [h, Ne.symm hc])
    rw [e]
    simpa using this
  simp only [searchName, hi]

/-- What is looked for if everything before the list of `mut` and `_` is written with characters
of one byte. -/
theorem search_ascii {n p : String} (h : Sought n p) (ha : ∀ c ∈ p.toList, c.utf8Size = 1) : searchName n = some p := by
  cases h with
  | plain h => exact search_plain h
  | @marked b rest c e h1 h2 =>
    rw [search_marked e h1 h2]
    have hb : sliceTo n.toList b.length = some b :=
      sliceTo_iff.2 ⟨by rw [e]; exact List.prefix_append .., bytes_ascii fun c hc => ha c (by simpa using hc)⟩
    rw [hb]
    rfl

/-! ## The list -/

theorem begins_iff {p n : String} : p.toList.isPrefixOf n.toList = true ↔ Begins p n := by
  rw [List.isPrefixOf_iff_prefix]
  constructor
  · rintro ⟨t, h⟩; exact ⟨t, h.symm⟩
  · rintro ⟨t, h⟩; exact ⟨t, h.symm⟩

theorem suggestLoop_eq (p : String) : ∀ (l : List String) (b : Bool) (t : String),
    suggestLoop p l b t = (b || !(l.filter fun n => p.toList.isPrefixOf n.toList).isEmpty,
      t ++ String.join ((l.filter fun n => p.toList.isPrefixOf n.toList).map fun n => "- " ++ n ++ "\n"))
  | [], b, t => by simp [suggestLoop, String.join]
  | n :: l, b, t => by
    unfold suggestLoop
    by_cases h : p.toList.isPrefixOf n.toList = true
    · rw [if_pos h, suggestLoop_eq p l]
      simp [h, String.append_assoc]
    · rw [if_neg h, suggestLoop_eq p l]
      simp [h]

theorem suggestions_eq {n p : String} (h : searchName n = some p) (own host : List String) :
    suggestions n own host = some (proposal ((own ++ host).filter fun n => p.toList.isPrefixOf n.toList)) := by
  simp only [suggestions, h, suggestLoop_eq, List.filter_append]
  cases h1 : own.filter fun n => p.toList.isPrefixOf n.toList <;>
    cases h2 : host.filter fun n => p.toList.isPrefixOf n.toList <;>
    simp [proposal, String.join_append, String.append_assoc]

/-- **C82.** The proposal lists exactly the known names that begin with what is looked for. -/
theorem C82_proposes {env : Env} {ns : Nodes} {look : Mod.Map Nat} {own host : List String} {n p : String}
    (hn : Named ns) (hl : Mod.functionLookup (ns.functions.map fun f => (ns.at f).name.getD "") 0 Mod.Map.empty = some look)
    (ho : Keys look own) (hh : Keys env.prelude.functions host) (h : Sought n p)
    (ha : ∀ c ∈ p.toList, c.utf8Size = 1 ∨ '(' ∉ n.toList) :
    ∃ s, suggestions n own host = some s ∧ Proposes env ns p s := by
  have hs : searchName n = some p := by
    by_cases h0 : '(' ∈ n.toList
    · exact search_ascii h fun c hc => (ha c hc).resolve_right (not_not.2 h0)
    · cases h with
      | plain h => exact search_plain h
      | marked e => rw [e] at h0; simp at h0
  refine ⟨_, suggestions_eq hs own host, _, rfl, fun m => ?_⟩
  rw [List.mem_filter, List.mem_append, begins_iff, ho, hh]
  refine and_congr_left fun _ => ?_
  obtain ⟨l1, l2⟩ := Mod.functionLookup_get _ _ _ _ hl
  constructor
  · rintro (h1 | h1)
    · by_cases hm : m ∈ ns.functions.map fun f => (ns.at f).name.getD ""
      · obtain ⟨f, hf, e⟩ := List.mem_map.1 hm
        obtain ⟨f1, f2⟩ := functions_mem.1 hf
        obtain ⟨x, hx⟩ := hn f f1 f2
        rw [hx] at e
        exact .file f1 f2 (by rw [hx, ← e]; rfl)
      · rw [l2 m hm] at h1; cases h1
    · obtain ⟨i, hi⟩ := Option.isSome_iff_exists.1 h1
      exact .host hi
  · rintro (⟨f1, f2, f3⟩ | ⟨hi⟩)
    · rename_i f
      left
      have : m ∈ ns.functions.map fun f => (ns.at f).name.getD "" :=
        List.mem_map.2 ⟨f, functions_mem.2 ⟨f1, f2⟩, by rw [f3]; rfl⟩
      obtain ⟨j, hj⟩ := List.mem_iff_getElem?.1 this
      rw [l1 j m hj]
      rfl
    · right; rw [hi]; rfl

/-! ## The message -/

/-- Linking refuses a call exactly if there is a message for it (or it panics for another reason). -/
theorem refused_of {env : Env} {look : Mod.Map Nat} {ns : Nodes} {c : Nat} {e : CallErr}
    (h : ns.linkCall env look c = .error e) (he : e ≠ .panic c) (hi : ∀ i n, look n = some i → ns.functions[i]? ≠ none)
    (hp : ∀ n i, env.prelude.functions n = some i → env.prelude.list[i]? ≠ none) : ∃ r, ns.refused env look c = some r := by
  unfold Nodes.linkCall at h
  unfold Nodes.refused
  cases hn : (ns.at c).name with
  | none => rw [hn] at h; cases h; exact absurd rfl he
  | some name =>
    simp only [hn, Mod.checkCall] at h ⊢
    cases ha : (ns.at c).alias with
    | some al =>
      simp only [ha] at h ⊢
      cases hg : env.aliases.get al name with
      | none => exact ⟨_, rfl⟩
      | some x =>
        cases x with
        | external k => exact ⟨_, rfl⟩
        | loaded i =>
          simp only [hg, Mod.checkArity, Option.isSome_some, Bool.true_or, if_true] at h
          split at h
          · cases h
          · cases h; exact absurd rfl he
    | none =>
      simp only [ha] at h ⊢
      cases hl : look name with
      | some i =>
        simp only [hl, Mod.checkArity] at h ⊢
        cases hf : ns.functions[i]? with
        | none => exact absurd hf (hi i name hl)
        | some f =>
          simp only [List.getElem?_map, hf, Option.map_some] at h ⊢
          by_cases hc : (ns.args f).length = ns.argCount c
          · rw [if_pos (by simp [hc])] at h; cases h
          · exact ⟨_, by rw [if_pos hc]⟩
      | none =>
        simp only [hl] at h ⊢
        cases hq : env.prelude.functions name with
        | none => exact ⟨_, rfl⟩
        | some i =>
          simp only [hq, Mod.checkArity] at h ⊢
          cases hd : env.prelude.list[i]? with
          | none => exact absurd hd (hp name i hq)
          | some d =>
            simp only [hd, Option.map_some] at h ⊢
            by_cases hc : d.lts.length = ns.argCount c
            · rw [if_pos (by simp [hc])] at h; cases h
            · exact ⟨_, by rw [if_pos hc]⟩

/-- A name is what its list of `mut` and `_` leaves, or begins with the list. -/
theorem sought_exists {n : String} (h : n.toList.head? ≠ some '(') : ∃ p, Sought n p := by
  by_cases hm : '(' ∈ n.toList
  · obtain ⟨b, rest, e, hb⟩ := List.eq_append_cons_of_mem hm
    rcases List.eq_nil_or_concat b with rfl | ⟨b', c, rfl⟩
    · rw [e] at h; exact absurd rfl h
    · simp only [List.concat_eq_append, List.mem_append, List.mem_singleton, not_or] at hb
      exact ⟨_, .marked (b := b') (c := c) (rest := rest) (by rw [e]; simp) hb.1 (Ne.symm hb.2)⟩
  · exact ⟨n, .plain hm⟩

/-- **C82.** The message of a refused call says why it is refused, and proposes exactly the known
functions whose names begin with what is looked for, provided that the name is plain or what is
looked for is written with characters of one byte.  Missing: names with `mut` arguments in other
characters (`C82_panics_iff`), and that the last character of a name with `mut` arguments is not looked at
(`Sought`, `C82_last_letter`). -/
theorem C82_message_partial {env : Env} {ns : Nodes} {look : Mod.Map Nat} {own host : List String} {c : Nat} {e : CallErr}
    (hn : Named ns) (hl : Mod.functionLookup (ns.functions.map fun f => (ns.at f).name.getD "") 0 Mod.Map.empty = some look)
    (ho : Keys look own) (hh : Keys env.prelude.functions host)
    (hp : ∀ n i, env.prelude.functions n = some i → env.prelude.list[i]? ≠ none)
    (hc : ∀ n, (ns.at c).name = some n → n.toList.head? ≠ some '(' ∧
      ∀ p, Sought n p → ∀ ch ∈ p.toList, ch.utf8Size = 1 ∨ '(' ∉ n.toList)
    (h : ns.linkCall env look c = .error e) (he : e ≠ .panic c) :
    ∃ r text, ns.refused env look c = some r ∧ r.text own host = some text ∧ Says env ns c text := by
  have hs := lookup_spec hn hl
  obtain ⟨r, hr⟩ := refused_of h he
    (fun i n hi => by obtain ⟨f, hf, -⟩ := (hs n).1 i hi; rw [hf]; exact Option.some_ne_none _) hp
  refine ⟨r, ?_⟩
  have hr' := hr
  unfold Nodes.refused at hr
  cases hname : (ns.at c).name with
  | none => rw [hname] at hr; cases hr
  | some n =>
    obtain ⟨p, hsp⟩ := sought_exists (hc n hname).1
    obtain ⟨s, hs1, hs2⟩ := C82_proposes (env := env) hn hl ho hh hsp ((hc n hname).2 p hsp)
    simp only [hname] at hr
    cases ha : (ns.at c).alias with
    | some al =>
      simp only [ha] at hr
      have key : (∀ i, env.aliases.get al n ≠ some (.loaded i)) ∧ r = .alias al n := by
        split at hr
        · cases hr
        · rename_i hx
          cases hr
          exact ⟨fun i hi => hx i hi, rfl⟩
      obtain ⟨k1, rfl⟩ := key
      exact ⟨_, hr', rfl, .alias ha hname k1 rfl⟩
    | none =>
      simp only [ha] at hr
      cases hlk : look n with
      | some i =>
        obtain ⟨f, f1, f2, f3, f4⟩ := (hs n).1 i hlk
        simp only [hlk, f1] at hr
        split at hr
        · rename_i hne
          cases hr
          exact ⟨_, hr', by simp only [Refused.text, hs1, Option.map_some],
            .file ha hname (.declared ha hname f2 f3 f4) hne hsp hs2 rfl⟩
        · cases hr
      | none =>
        have hno := (hs n).2 hlk
        simp only [hlk] at hr
        cases hq : env.prelude.functions n with
        | none =>
          simp only [hq, Option.some.injEq] at hr
          subst hr
          refine ⟨_, hr', by simp only [Refused.text, hs1, Option.map_some],
            .unknown ha hname ?_ hsp hs2 rfl⟩
          rintro (⟨f1, f2, f3⟩ | hi)
          · exact hno _ f1 f2 f3
          · rw [hq] at hi; cases hi
        | some i =>
          simp only [hq] at hr
          cases hd : env.prelude.list[i]? with
          | none => rw [hd] at hr; cases hr
          | some d =>
            simp only [hd] at hr
            split at hr
            · rename_i hne
              cases hr
              exact ⟨_, hr', rfl, .host ha hname (.imported ha hname hno hq hd) hne rfl⟩
            · cases hr

/-! ## The file -/

theorem refused_like {env : Env} {look : Mod.Map Nat} {a b : Nodes} (h : Like a b) (c : Nat) :
    b.refused env look c = a.refused env look c := by
  simp only [Nodes.refused, h.name, h.alias, h.functions, h.args, h.argCount]

/-- A refused list of calls has a first refused call. -/
theorem linkCallList_error {env : Env} {look : Mod.Map Nat} {ns0 : Nodes} {e : CallErr} : ∀ (cs : List Nat) (ns : Nodes),
    Like ns0 ns → ns.linkCallList env look cs = .error e → ∃ c ∈ cs, ∃ ns', Like ns0 ns' ∧ ns'.linkCall env look c = .error e
  | [], _, _, h => by cases h
  | c :: cs, ns, hL, h => by
    simp only [Nodes.linkCallList] at h
    split at h
    · rename_i e' h1
      cases h
      exact ⟨c, List.mem_cons_self .., ns, hL, h1⟩
    · rename_i ns1 h1
      obtain ⟨d, hd, r⟩ := linkCallList_error cs ns1 (hL.trans (linkCall_ok h1).1) h
      exact ⟨d, List.mem_cons_of_mem _ hd, r⟩

theorem linkCall_error {env : Env} {look : Mod.Map Nat} {ns : Nodes} {c : Nat} {e : CallErr}
    (h : ns.linkCall env look c = .error e) : e = .notFound c ∨ e = .arity c ∨ e = .panic c := by
  simp only [Nodes.linkCall] at h
  repeat' split at h
  all_goals first
    | (cases h; simp; done)
    | (cases h; done)

theorem extraParts_error {ns : Nodes} {f n : Nat} {ret : Ty} {e : CallErr} : ∀ (ts : List Nat) (a k : Nat),
    ns.extraParts f n ret ts a k = .error e → ∀ c, e ≠ .notFound c ∧ e ≠ .arity c
  | [], _, _, h => by cases h
  | t :: ts, a, k, h => by
    simp only [Nodes.extraParts] at h
    repeat' split at h
    all_goals first
      | exact extraParts_error ts _ _ h
      | (cases h; exact fun c => ⟨nofun, nofun⟩)

/-- The nodes without declarations and lifetimes decide what is said. -/
theorem says_like {env : Env} {a b : Nodes} (h : Like a b) {c : Nat} {t : String} (hs : Says env b c t) : Says env a c t := by
  have known : ∀ n, Known env b n ↔ Known env a n := fun n => by
    constructor
    · rintro (⟨f1, f2, f3⟩ | hi)
      · rw [h.1] at f1; rw [h.kind] at f2; rw [h.name] at f3; exact .file f1 f2 f3
      · exact .host hi
    · rintro (⟨f1, f2, f3⟩ | hi)
      · rw [← h.1] at f1; rw [← h.kind] at f2; rw [← h.name] at f3; exact .file f1 f2 f3
      · exact .host hi
  have prop : ∀ {p s}, Proposes env b p s → Proposes env a p s := by
    rintro p s ⟨l, e, hl⟩
    exact ⟨l, e, fun n => by rw [hl, known]⟩
  cases hs with
  | «alias» h1 h2 h3 h4 => rw [h.alias] at h1; rw [h.name] at h2; exact .alias h1 h2 h3 h4
  | unknown h1 h2 h3 h4 h5 h6 =>
    rw [h.alias] at h1; rw [h.name] at h2; exact .unknown h1 h2 (fun k => h3 ((known _).2 k)) h4 (prop h5) h6
  | host h1 h2 h3 h4 h5 =>
    rw [h.alias] at h1; rw [h.name] at h2; rw [h.argCount] at h4 h5; exact .host h1 h2 (means_like h h3) h4 h5
  | file h1 h2 h3 h4 h5 h6 h7 =>
    rw [h.alias] at h1; rw [h.name] at h2; rw [h.argCount, h.args] at h4 h7
    exact .file h1 h2 (means_like h h3) h4 h5 (prop h6) h7

/-- **C82.** If a file is refused because of a call, the message says why this call is refused, with the
names that are similar, under the conditions of `C82_message_partial` on the name of the call. -/
theorem C82_file_partial {env : Env} {ns : Nodes} {own host : List String} {c : Nat} {e : CallErr} (hn : Named ns)
    (ho : ∀ n, n ∈ own ↔ ∃ f < ns.length, (ns.at f).kind = .fn ∧ (ns.at f).name = some n)
    (hh : Keys env.prelude.functions host) (hp : ∀ n i, env.prelude.functions n = some i → env.prelude.list[i]? ≠ none)
    (hc : ∀ n, (ns.at c).name = some n → n.toList.head? ≠ some '(' ∧
      ∀ p, Sought n p → ∀ ch ∈ p.toList, ch.utf8Size = 1 ∨ '(' ∉ n.toList)
    (h : ns.linkCalls env = .error e) (he : e = .notFound c ∨ e = .arity c) :
    ∃ look r text, Mod.functionLookup (ns.functions.map fun f => (ns.at f).name.getD "") 0 Mod.Map.empty = some look ∧
      ns.refused env look c = some r ∧ r.text own host = some text ∧ Says env ns c text := by
  unfold Nodes.linkCalls at h
  split at h
  · cases h; rcases he with h | h <;> cases h
  · rename_i h0
    split at h
    · rename_i e' h1
      exfalso
      cases h
      obtain ⟨f, -, hf⟩ := List.exists_of_findSome?_eq_some h1
      have no : ∀ ch, e ≠ .notFound ch ∧ e ≠ .arity ch := by
        intro ch
        unfold Nodes.extra at hf
        split at hf
        · obtain ⟨k, -, hk⟩ := List.exists_of_findSome?_eq_some hf
          split at hk
          · cases hk; exact ⟨nofun, nofun⟩
          · cases hk
        · obtain ⟨k, -, hk⟩ := List.exists_of_findSome?_eq_some hf
          unfold Nodes.extraOne at hk
          split at hk
          · split at hk
            · rename_i e'' he''
              cases hk
              exact extraParts_error _ _ _ he'' ch
            · split at hk
              · cases hk; exact ⟨nofun, nofun⟩
              · cases hk
          · cases hk
        · cases hf
      rcases he with h | h
      · exact (no c).1 h
      · exact (no c).2 h
    · split at h
      · cases h; rcases he with h | h <;> cases h
      · rename_i look hl
        obtain ⟨d, -, ns', hL, hd⟩ := linkCallList_error (ns0 := ns) ns.calls ns (Like.refl _) h
        have hcd : d = c := by
          rcases linkCall_error hd with rfl | rfl | rfl <;> rcases he with h | h <;> cases h <;> rfl
        subst hcd
        have hs := lookup_spec hn hl
        obtain ⟨r, t, h1, h2, h3⟩ := C82_message_partial (own := own) (host := host) (ns := ns')
          (fun f hf hk => by rw [hL.1] at hf; rw [hL.kind] at hk; rw [hL.name]; exact hn f hf hk)
          (by simp only [hL.functions, hL.name]; exact hl)
          (fun n => by
            rw [ho]
            cases hlk : look n with
            | none =>
              simp only [Option.isSome_none, Bool.false_eq_true, iff_false]
              rintro ⟨f, f1, f2, f3⟩
              exact (hs n).2 hlk f f1 f2 f3
            | some i =>
              obtain ⟨f, -, f2⟩ := (hs n).1 i hlk
              simp only [Option.isSome_some, iff_true]
              exact ⟨f, f2⟩)
          hh hp (fun n h => hc n (by rw [← hL.name]; exact h)) hd
          (by rcases he with rfl | rfl <;> nofun)
        exact ⟨look, r, t, hl, by rw [← refused_like hL]; exact h1, h2, says_like hL h3⟩

/-! ## The panic -/

/-- **C82**, what goes wrong: for a call with a `mut` argument of an unknown function, making the
message panics exactly if no characters at the start of the name have as many *bytes* as the name has
*characters* but for the last. -/
theorem C82_panics_iff {n : String} {b rest : List Char} {ch : Char} (e : n.toList = b ++ ch :: '(' :: rest)
    (hb : '(' ∉ b) (hc : ch ≠ '(') (own host : List String) :
    suggestions n own host = none ↔ ¬ ∃ p, p <+: n.toList ∧ (p.map Char.utf8Size).sum = b.length := by
  unfold suggestions
  rw [search_marked e hb hc]
  cases h : sliceTo n.toList b.length with
  | none =>
    simp only [Option.map_none, true_iff]
    rintro ⟨p, h1, h2⟩
    rw [sliceTo_iff.2 ⟨h1, h2⟩] at h
    cases h
  | some p =>
    simp only [Option.map_some]
    constructor
    · intro h; cases h
    · intro h1; exact absurd ⟨p, sliceTo_iff.1 h⟩ h1

/-- **C82.** A plain name never makes the message panic. -/
theorem C82_plain {n : String} (h : '(' ∉ n.toList) (own host : List String) : suggestions n own host ≠ none := by
  rw [suggestions_eq (search_plain h)]
  exact Option.some_ne_none _

/-! ## Examples -/

namespace SuggestDemo
open TextDemo
open Front (Src FnSrc)
variable [FloatOps] [Data.Lex]

local macro "kernel_rfl" : tactic => `(tactic| run_tac do
  let g ← Lean.Elab.Tactic.getMainGoal
  let some (_, a, _) := (← Lean.instantiateMVars (← g.getType)).eq? | throwError "not an equation"
  g.assign (← Lean.Meta.mkEqRefl a))

/-- A function of this name. -/
def named (n : String) (as : List String) (es : List Src) : FnSrc := { fn as es with name := n }

/-- The nodes of a file. -/
def nodes (fs : List FnSrc) : Nodes := match built (fs.map FnSrc.tree) with
  | .ok ts => arena ts
  | .error _ => []

/-- The map of the functions of a file. -/
def lookOf (ns : Nodes) : Mod.Map Nat :=
  (Mod.functionLookup (ns.functions.map fun f => (ns.at f).name.getD "") 0 Mod.Map.empty).getD Mod.Map.empty

/-- The number of the first call. -/
def firstCall (ns : Nodes) : Nat := ns.calls.headD 0

/-- A host with the function `print`. -/
def host : Env := ⟨⟨fun n => if n = "print" then some 0 else none, [⟨[.default], [.any], .void, [], []⟩], []⟩, fun _ => none⟩

/-- `fn foo() { }  fn fold() { }  fn main(x) { foo(x) }` -/
def wrong : List FnSrc := [named "foo" [] [], named "fold" [] [], fn ["x"] [call "foo" [v "x"]]]

theorem wrong_refused : (nodes wrong).linkCalls host = .error (.arity (firstCall (nodes wrong))) := by kernel_rfl

theorem wrong_names : (nodes wrong).functions.map (fun f => ((nodes wrong).at f).name) = [some "foo", some "fold", some "main"] := by
  kernel_rfl

/-- The hypotheses of `C82_file_partial` are met. -/
example : ∃ look r text, Mod.functionLookup ((nodes wrong).functions.map fun f => ((nodes wrong).at f).name.getD "") 0
      Mod.Map.empty = some look ∧ (nodes wrong).refused host look (firstCall (nodes wrong)) = some r ∧
    r.text ["main", "fold", "foo"] ["print"] = some text ∧ Says host (nodes wrong) (firstCall (nodes wrong)) text := by
  have h0 : ((nodes wrong).at (firstCall (nodes wrong))).name = some "foo" := by kernel_rfl
  refine C82_file_partial ?_ ?_ ?_ ?_ ?_ wrong_refused (.inr rfl)
  · intro f hf hk
    have : ((nodes wrong).at f).name ∈ (nodes wrong).functions.map (fun f => ((nodes wrong).at f).name) :=
      List.mem_map.2 ⟨f, functions_mem.2 ⟨hf, hk⟩, rfl⟩
    rw [wrong_names] at this
    simp only [List.mem_cons, List.not_mem_nil, or_false] at this
    rcases this with h | h | h <;> exact ⟨_, h⟩
  · intro n
    have : some n ∈ (nodes wrong).functions.map (fun f => ((nodes wrong).at f).name) ↔
        ∃ f < (nodes wrong).length, ((nodes wrong).at f).kind = .fn ∧ ((nodes wrong).at f).name = some n := by
      rw [List.mem_map]
      simp only [functions_mem, and_assoc]
    rw [← this, wrong_names]
    simp only [List.mem_cons, List.not_mem_nil, or_false, Option.some.injEq]
    constructor <;> (rintro (h | h | h) <;> simp [h])
  · intro n
    simp only [host, List.mem_singleton]
    split <;> simp_all
  · intro n i h
    simp only [host] at h ⊢
    split at h
    · cases h; simp
    · cases h
  · intro n hn
    rw [h0] at hn
    cases hn
    exact ⟨by decide, fun p _ ch _ => .inr (by decide)⟩

/-- This is the message. -/
example : ((nodes wrong).refused host (lookOf (nodes wrong)) (firstCall (nodes wrong))).bind
      (Refused.text ["main", "fold", "foo"] ["print"]) =
    some "foo: Expected 0 arguments, found 1\n\nDid you mean:\n- foo\n" := by kernel_rfl

/-- `fn main(x) { foo(mut x) }`, and functions `fold` and `foo` -/
def marked (n : String) : List FnSrc :=
  [named "foo" [] [], named "fold" [] [], fn ["x"] [call n [.mutItem (.mk false "x" false [])]]]

/-- **Finding (C82).** With a `mut` argument, the last character of the name is not looked at:
for the unknown `foo(mut)` the function `fold` is proposed. -/
theorem C82_last_letter :
    (nodes (marked "foo")).linkCalls host = .error (.notFound (firstCall (nodes (marked "foo")))) ∧
    ((nodes (marked "foo")).refused host (lookOf (nodes (marked "foo"))) (firstCall (nodes (marked "foo")))).bind
      (Refused.text ["main", "fold", "foo"] ["print"]) =
    some "Could not find function `foo(mut)`\n\nDid you mean:\n- fold\n- foo\n" := ⟨by kernel_rfl, by kernel_rfl⟩

/-- **Finding (C82).** A call of an unknown function with a `mut` argument makes the checker panic if
the name is not written in ASCII: `éé(mut x)`. -/
theorem C82_report_panics (own names : List String) :
    (nodes (marked "éé")).linkCalls host = .error (.notFound (firstCall (nodes (marked "éé")))) ∧
    (nodes (marked "éé")).refused host (lookOf (nodes (marked "éé"))) (firstCall (nodes (marked "éé"))) =
      some (.unknown "éé(mut)") ∧
    (Refused.unknown "éé(mut)").text own names = none := by
  refine ⟨by kernel_rfl, by kernel_rfl, ?_⟩
  have : suggestions "éé(mut)" own names = none := by
    refine (C82_panics_iff (b := ['é']) (ch := 'é') (rest := "mut)".toList) (by decide) (by decide) (by decide) own names).2 ?_
    rintro ⟨p, h1, h2⟩
    cases p with
    | nil => cases h2
    | cons x p =>
      have hx : x = 'é' := by
        obtain ⟨t, ht⟩ := h1
        have := congrArg List.head? ht
        simpa using this
      subst hx
      have : Char.utf8Size 'é' = 2 := by decide
      simp only [List.map_cons, List.sum_cons, this, List.length_singleton] at h2
      omega
  simp only [Refused.text, this, Option.map_none]

end SuggestDemo

end Dyon.Check
