import Verif.Host.Macros
import Verif.Host.EmbedProps
import Verif.Eval.CallProps

/-!
# C74: functions and structs of the host in programs
-/

namespace Dyon

/-! ## Specification -/

namespace Spec

/-- A value of the host that is kept exactly when it is pushed and popped. -/
structure KeptExactly (t : Conv) (x : t.T) : Prop where
  not_ref : ∀ i, t.push x ≠ .ref i
  back : ∀ st trace n, t.pop st trace n (t.push x) = .ok x

/-- All fields of a struct are kept. -/
def AllKept : (fs : List (String × Conv)) → Fields fs → Prop
  | [], _ => True
  | f :: fs, x => KeptExactly f.2 x.1 ∧ AllKept fs x.2

/-- A value stands for `w`: it is `w`, or refers to a variable that holds `w`. -/
def StandsFor (base : Stack) (v w : Val) : Prop := v = w ∨ ∃ i, v = .ref i ∧ base[i]? = some w

/-- A value of the program is what the host function expects for a parameter. -/
def IsArg (kind : Nat → String) (base : Stack) : (p : Param) → p.T → Val → Prop
  | .val t, x, v => KeptExactly t x ∧ StandsFor base v (t.push x)
  | .obj ty, o, v => kind o = ty ∧ StandsFor base v (.rustObject o)

/-- The values of the program are the arguments of the host function, in the same order. -/
def AreArgs (kind : Nat → String) (base : Stack) : (ps : List Param) → HostArgs ps → List Val → Prop
  | [], _, vs => vs = []
  | p :: ps, x, vs => ∃ w ws, vs = w :: ws ∧ IsArg kind base p x.1 w ∧ AreArgs kind base ps x.2 ws

/-- The objects of the host among the arguments. -/
def objects : (ps : List Param) → HostArgs ps → List Nat
  | [], _ => []
  | .val _ :: ps, x => objects ps x.2
  | .obj _ :: ps, x => x.1 :: objects ps x.2

end Spec

open Spec

section
variable [FloatOps] [VecMath]

/-! ## Lemmas -/

omit [FloatOps] [VecMath] in
theorem EM.bind_assoc {α β γ} (m : EM α) (f : α → EM β) (g : β → EM γ) :
    (m >>= f >>= g) = m >>= fun x => f x >>= g := by
  funext st
  show EM.bind (EM.bind m f) g st = EM.bind m (fun x => EM.bind (f x) g) st
  unfold EM.bind
  cases m st <;> rfl

omit [FloatOps] [VecMath] in
theorem lookup_insertKey_self (k : String) (v : Val) (kvs : List (String × Val)) :
    (insertKey k v kvs).lookup k = some v := by
  unfold insertKey
  split
  · rename_i h
    induction kvs with
    | nil => simp at h
    | cons kv rest ih =>
      obtain ⟨k', v'⟩ := kv
      by_cases hk : k' = k
      · subst hk; simp [setKey]
      · have hk2 : ¬ k = k' := fun h => hk h.symm
        have hb : (k == k') = false := by simpa using hk2
        rw [List.lookup_cons, hb] at h
        simp only [setKey, if_neg hk, List.lookup_cons, hb]
        exact ih h
  · rename_i h
    rw [List.lookup_append, Option.not_isSome_iff_eq_none.1 h]; simp

omit [FloatOps] [VecMath] in
theorem lookup_insertKey_ne {k k' : String} (hne : k' ≠ k) (v : Val) (kvs : List (String × Val)) :
    (insertKey k v kvs).lookup k' = kvs.lookup k' := by
  have hb : (k' == k) = false := by simpa using hne
  unfold insertKey
  split
  · induction kvs with
    | nil => rfl
    | cons kv rest ih =>
      obtain ⟨a, w⟩ := kv
      rename_i h
      by_cases hk : a = k
      · subst hk; simp [setKey, List.lookup_cons, hb]
      · have hka : (k == a) = false := by simpa using fun h => hk h.symm
        rw [List.lookup_cons, hka] at h
        simp only [setKey, if_neg hk, List.lookup_cons]
        rw [ih h]
  · rw [List.lookup_append]
    simp [List.lookup_cons, hb]

omit [FloatOps] [VecMath] in
theorem pushFields_other (fs : List (String × Conv)) (x : Fields fs) (obj : List (String × Val)) {k : String}
    (hk : k ∉ fs.map Prod.fst) : (pushFields fs x obj).lookup k = obj.lookup k := by
  induction fs generalizing obj with
  | nil => rfl
  | cons f fs ih =>
    obtain ⟨y, ys⟩ := x
    rw [List.map_cons, List.mem_cons, not_or] at hk
    rw [pushFields, ih ys _ hk.2, lookup_insertKey_ne hk.1]

omit [FloatOps] [VecMath] in
theorem popFields_pushFields {st : Stack} {trace : String} {n : Nat} (fs : List (String × Conv)) (x : Fields fs)
    (hd : (fs.map Prod.fst).Nodup) (hx : AllKept fs x) (obj obj' : List (String × Val))
    (ho : ∀ k ∈ fs.map Prod.fst, obj'.lookup k = (pushFields fs x obj).lookup k) :
    popFields st trace n obj' fs = .ok x := by
  induction fs generalizing obj with
  | nil => rfl
  | cons f fs ih =>
    obtain ⟨y, ys⟩ := x
    rw [List.map_cons, List.nodup_cons] at hd
    have h1 : obj'.lookup f.1 = some (f.2.push y) := by
      rw [ho f.1 (by simp), pushFields, pushFields_other fs ys _ hd.1, lookup_insertKey_self]
    have h2 := ih ys hd.2 hx.2 (insertKey f.1 (f.2.push y) obj) fun k hk => by
      rw [ho k (by simp [hk]), pushFields]
    rw [popFields, convField, h1]
    simp only
    rw [hx.1.back]
    simp only [Pop.bind]
    rw [h2]

omit [FloatOps] [VecMath] in
theorem Pop.get_standsFor {α} {base more : Stack} {pop : Val → Pop α} {v w : Val} (hw : ∀ i, w ≠ .ref i)
    (h : StandsFor base v w) : Pop.get (base ++ more) pop v = pop w := by
  rcases h with rfl | ⟨i, rfl, hi⟩
  · cases v <;> first | exact absurd rfl (hw _) | rfl
  · have hlt := (List.getElem?_eq_some_iff.1 hi).1
    rw [Pop.get, List.getElem?_append_left hlt, hi]

omit [FloatOps] [VecMath] in
theorem popConv_at {n : Nat} {t : Conv} {st : St} {base more : Stack} {v w : Val} (hw : ∀ i, w ≠ .ref i)
    (hs : st.stack = base ++ more ++ [v]) (h : StandsFor base v w) :
    popConv n t st = (t.pop (base ++ more) (stackTrace st.calls) n w).toEv { st with stack := base ++ more } := by
  rw [popConv, hs]
  simp only [List.getLast?_concat, List.dropLast_concat]
  rw [Pop.get_standsFor hw h]

omit [FloatOps] [VecMath] in
theorem lockObj_ok {kind : Nat → String} {held : List Nat} {ty : String} {o : Nat} {st : St} (hh : o ∉ held)
    (hk : kind o = ty) : lockObj kind held ty o st = .ok (o, o :: held) st := by
  rw [lockObj, if_neg hh, if_pos hk]; rfl

theorem popParam_at {kind n held st} {base more : Stack} {v : Val} {p : Param} {x : p.T}
    (hs : st.stack = base ++ more ++ [v]) (h : IsArg kind base p x v)
    (hh : ∀ o ∈ objects [p] (x, ()), o ∉ held) :
    popParam kind n held p st =
      .ok (x, objects [p] (x, ()) ++ held) { st with stack := base ++ more } := by
  cases p with
  | val t =>
    have hp : popConv n t st = .ok x { st with stack := base ++ more } := by
      rw [popConv_at h.1.not_ref hs h.2, h.1.back]; rfl
    rw [popParam, EM.bind_ok hp]; rfl
  | obj ty =>
    have hp : popConv n (Conv.of .rust) st = .ok x { st with stack := base ++ more } := by
      rw [popConv_at (w := .rustObject x) (by intro i; simp) hs h.2]; rfl
    refine (EM.bind_ok hp).trans ?_
    exact lockObj_ok (hh x List.mem_cons_self) h.1

theorem popParams_at {kind n} (ps : List Param) (xs : HostArgs ps) {st : St} {base more : Stack} {vs : List Val}
    (hs : st.stack = base ++ more ++ vs) (h : AreArgs kind base ps xs vs) (hd : (objects ps xs).Nodup) :
    popParams kind n ps st = .ok (xs, objects ps xs) { st with stack := base ++ more } := by
  induction ps generalizing st more vs with
  | nil =>
    cases h
    rw [List.append_nil] at hs
    rw [← hs]; rfl
  | cons p ps ih =>
    obtain ⟨x, ys⟩ := xs
    obtain ⟨w, ws, rfl, hp, hps⟩ := h
    have hd' : (objects ps ys).Nodup ∧ ∀ o ∈ objects [p] (x, ()), o ∉ objects ps ys := by
      cases p with
      | val t => exact ⟨hd, by simp [objects]⟩
      | obj ty =>
        have hd2 := List.nodup_cons.1 (show List.Nodup (α := Nat) (x :: objects ps ys) from hd)
        exact ⟨hd2.2, fun o ho => by
          have : o = x := by simpa using (show o ∈ [x] from ho)
          rw [this]; exact hd2.1⟩
    have h1 := ih ys (st := st) (more := more ++ [w]) (vs := ws) (by rw [hs]; simp) hps hd'.1
    rw [popParams, EM.bind_ok h1]
    simp only
    rw [EM.bind_ok (popParam_at (base := base) (more := more) (by simp) hp hd'.2)]
    cases p <;> rfl

theorem popParams_val_err {n : Nat} {kind : Nat → String} {pre post : List Param} {t : Conv} {xs : HostArgs post}
    {st : St} {base : Stack} {vpre vpost : List Val} {w v : Val} {m : String}
    (hs : st.stack = base ++ vpre ++ w :: vpost) (hx : AreArgs kind base post xs vpost)
    (hd : (objects post xs).Nodup) (hw : StandsFor base w v) (hv : ∀ i, v ≠ .ref i)
    (he : t.pop (base ++ vpre) (stackTrace st.calls) n v = .err m) :
    popParams kind n (pre ++ .val t :: post) st = .err m { st with stack := base ++ vpre } := by
  induction pre with
  | nil =>
    have h1 := popParams_at (kind := kind) (n := n) post xs (st := st) (more := vpre ++ [w]) (vs := vpost)
      (by rw [hs]; simp) hx hd
    rw [List.nil_append, popParams, EM.bind_ok h1]
    refine EM.bind_err ?_
    rw [popParam]
    refine EM.bind_err ?_
    rw [popConv_at (base := base) (more := vpre) hv (by simp) hw]
    simp only
    rw [he]; rfl
  | cons p pre ih =>
    rw [List.cons_append, popParams]
    exact EM.bind_err ih

theorem popParams_obj {n : Nat} {kind : Nat → String} {post : List Param} {ty : String} {xs : HostArgs post}
    {st : St} {base : Stack} {vpre vpost : List Val} {w : Val} {o : Nat}
    (hs : st.stack = base ++ vpre ++ w :: vpost) (hx : AreArgs kind base post xs vpost)
    (hd : (objects post xs).Nodup) (hw : StandsFor base w (.rustObject o)) :
    popParams kind n (.obj ty :: post) st =
      (lockObj kind (objects post xs) ty o >>= fun x => pure ((x.1, xs), x.2) : EM _)
        { st with stack := base ++ vpre } := by
  have h1 := popParams_at (kind := kind) (n := n) post xs (st := st) (more := vpre ++ [w]) (vs := vpost)
    (by rw [hs]; simp) hx hd
  rw [popParams, EM.bind_ok h1]
  have hp : popConv n (Conv.of .rust) { st with stack := base ++ (vpre ++ [w]) } =
      .ok o { st with stack := base ++ vpre } := by
    rw [popConv_at (base := base) (more := vpre) (w := .rustObject o) (by intro i; simp) (by simp) hw]; rfl
  show ((popConv n (Conv.of .rust) >>= lockObj kind (objects post xs) ty) >>= _) _ = _
  refine (congrFun (EM.bind_assoc _ _ _) _).trans ?_
  exact EM.bind_ok hp

theorem popParams_obj_err {n : Nat} {kind : Nat → String} {pre post : List Param} {ty : String} {xs : HostArgs post}
    {st : St} {base : Stack} {vpre vpost : List Val} {w : Val} {o : Nat}
    (hs : st.stack = base ++ vpre ++ w :: vpost) (hx : AreArgs kind base post xs vpost)
    (hd : (objects post xs).Nodup) (hw : StandsFor base w (.rustObject o)) (ho : o ∉ objects post xs)
    (hk : kind o ≠ ty) :
    popParams kind n (pre ++ .obj ty :: post) st =
      .err ("Expected Rust object of type: " ++ ty) { st with stack := base ++ vpre } := by
  induction pre with
  | nil =>
    rw [List.nil_append, popParams_obj hs hx hd hw]
    refine EM.bind_err ?_
    rw [lockObj, if_neg ho, if_neg hk]; rfl
  | cons p pre ih =>
    rw [List.cons_append, popParams]
    exact EM.bind_err ih

theorem popParams_obj_locked {n : Nat} {kind : Nat → String} {pre post : List Param} {ty : String} {xs : HostArgs post}
    {st : St} {base : Stack} {vpre vpost : List Val} {w : Val} {o : Nat}
    (hs : st.stack = base ++ vpre ++ w :: vpost) (hx : AreArgs kind base post xs vpost)
    (hd : (objects post xs).Nodup) (hw : StandsFor base w (.rustObject o)) (ho : o ∈ objects post xs) :
    popParams kind n (pre ++ .obj ty :: post) st = .timeout := by
  induction pre with
  | nil =>
    rw [List.nil_append, popParams_obj hs hx hd hw]
    refine EM.bind_timeout ?_
    rw [lockObj, if_pos ho]; rfl
  | cons p pre ih =>
    rw [List.cons_append, popParams]
    exact EM.bind_timeout ih

/-! ## Properties -/

variable {c : ECfg} {n : Nat} {kind : Nat → String}

/-- **C74.** A call of a function of the host runs the block of the host on the values of the
arguments, each for the parameter in the same place, however they are converted; the result is the
converted result of the block, and the arguments are gone from the stack. -/
theorem C74_call {f : Nat} {name : String} {args : List Expr} {vs : List Val} {s u : St} {base : Stack}
    {side : Side} {ps : List Param} {r : Conv} {inner : HostArgs ps → EM r.T}
    (hf : c.retFn f = dyonFn kind n ps r inner) (ha : ArgsTo c n args vs s u) (hb : u.stack = base ++ vs)
    (xs : HostArgs ps) (hx : AreArgs kind base ps xs vs) (hd : (objects ps xs).Nodup) :
    eval c (n + 1) (.call (.ret f) name args) side s =
      (do let y ← inner xs; pure (some (r.push y), Flow.cont) : EM R) { u with stack := base } := by
  have hp := popParams_at (kind := kind) (n := n) ps xs (more := []) (by simpa using hb) hx hd
  show callReturn c (eval c n) f args s = _
  rw [callReturn, lazyArgs_run (by simp) ha, hf, dyonFn]
  rw [List.append_nil] at hp
  rw [EM.bind_assoc, EM.bind_ok hp]
  simp only [EM.bind_assoc]
  rfl

/-- **C74.** The same for a function without a result. -/
theorem C74_call_void {f : Nat} {name : String} {args : List Expr} {vs : List Val} {s u : St} {base : Stack}
    {side : Side} {ps : List Param} {inner : HostArgs ps → EM Unit}
    (hf : c.voidFn f = dyonVoidFn kind n ps inner) (ha : ArgsTo c n args vs s u) (hb : u.stack = base ++ vs)
    (xs : HostArgs ps) (hx : AreArgs kind base ps xs vs) (hd : (objects ps xs).Nodup) :
    eval c (n + 1) (.call (.void f) name args) side s =
      (do inner xs; pure (none, Flow.cont) : EM R) { u with stack := base } := by
  have hp := popParams_at (kind := kind) (n := n) ps xs (more := []) (by simpa using hb) hx hd
  show callVoid c (eval c n) f args s = _
  rw [callVoid, lazyArgs_run (by simp) ha, hf, dyonVoidFn]
  rw [List.append_nil] at hp
  rw [EM.bind_assoc, EM.bind_ok hp]
  rfl

/-- **C74.** If the value for a parameter cannot be converted, and those after it can, the call fails
with the error of the conversion and the block of the host is not run. -/
theorem C74_bad_value {f : Nat} {name : String} {args : List Expr} {vpre vpost : List Val} {w v : Val} {s u : St}
    {base : Stack} {side : Side} {pre post : List Param} {t r : Conv} {inner : HostArgs (pre ++ .val t :: post) → EM r.T}
    {m : String} (hf : c.retFn f = dyonFn kind n (pre ++ .val t :: post) r inner)
    (ha : ArgsTo c n args (vpre ++ w :: vpost) s u) (hb : u.stack = base ++ (vpre ++ w :: vpost))
    (xs : HostArgs post) (hx : AreArgs kind base post xs vpost) (hd : (objects post xs).Nodup)
    (hw : StandsFor base w v) (hv : ∀ i, v ≠ .ref i) (he : ∀ st, t.pop st (stackTrace u.calls) n v = .err m) :
    eval c (n + 1) (.call (.ret f) name args) side s = .err m { u with stack := base ++ vpre } := by
  show callReturn c (eval c n) f args s = _
  rw [callReturn, lazyArgs_run (by simp) ha, hf, dyonFn, EM.bind_assoc]
  exact EM.bind_err (popParams_val_err (by rw [hb, List.append_assoc]) hx hd hw hv (he _))

/-- **C74.** In particular a value of another kind is an error that names both kinds. -/
theorem C74_wrong_kind {f : Nat} {name : String} {args : List Expr} {vpre vpost : List Val} {w v : Val} {s u : St}
    {base : Stack} {side : Side} {pre post : List Param} {t : HTy} {r : Conv}
    {inner : HostArgs (pre ++ .val (.of t) :: post) → EM r.T} {want what : String}
    (hf : c.retFn f = dyonFn kind n (pre ++ .val (.of t) :: post) r inner)
    (ha : ArgsTo c n args (vpre ++ w :: vpost) s u) (hb : u.stack = base ++ (vpre ++ w :: vpost))
    (xs : HostArgs post) (hx : AreArgs kind base post xs vpost) (hd : (objects post xs).Nodup)
    (hw : StandsFor base w v) (hr : ∀ i, v ≠ .ref i) (hk : t.kind = some (want, what)) (hv : v.typeofVar ≠ want) :
    eval c (n + 1) (.call (.ret f) name args) side s =
      .err (stackTrace u.calls ++ "\nExpected `" ++ what ++ "`, found `" ++ v.typeofVar ++ "`")
        { u with stack := base ++ vpre } :=
  C74_bad_value hf ha hb xs hx hd hw hr fun st => C43_wrong_kind st _ n t v want what hk hv

/-- **C74.** An object of the host of another type is an error. -/
theorem C74_wrong_object {f : Nat} {name : String} {args : List Expr} {vpre vpost : List Val} {w : Val} {o : Nat}
    {s u : St} {base : Stack} {side : Side} {pre post : List Param} {ty : String} {r : Conv}
    {inner : HostArgs (pre ++ .obj ty :: post) → EM r.T}
    (hf : c.retFn f = dyonFn kind n (pre ++ .obj ty :: post) r inner)
    (ha : ArgsTo c n args (vpre ++ w :: vpost) s u) (hb : u.stack = base ++ (vpre ++ w :: vpost))
    (xs : HostArgs post) (hx : AreArgs kind base post xs vpost) (hd : (objects post xs).Nodup)
    (hw : StandsFor base w (.rustObject o)) (ho : o ∉ objects post xs) (hk : kind o ≠ ty) :
    eval c (n + 1) (.call (.ret f) name args) side s =
      .err ("Expected Rust object of type: " ++ ty) { u with stack := base ++ vpre } := by
  show callReturn c (eval c n) f args s = _
  rw [callReturn, lazyArgs_run (by simp) ha, hf, dyonFn, EM.bind_assoc]
  exact EM.bind_err (popParams_obj_err (by rw [hb, List.append_assoc]) hx hd hw ho hk)

/-- Finding: if the same object of the host is given for two parameters, the call never ends. -/
theorem C74_same_object {f : Nat} {name : String} {args : List Expr} {vpre vpost : List Val} {w : Val} {o : Nat}
    {s u : St} {base : Stack} {side : Side} {pre post : List Param} {ty : String} {r : Conv}
    {inner : HostArgs (pre ++ .obj ty :: post) → EM r.T}
    (hf : c.retFn f = dyonFn kind n (pre ++ .obj ty :: post) r inner)
    (ha : ArgsTo c n args (vpre ++ w :: vpost) s u) (hb : u.stack = base ++ (vpre ++ w :: vpost))
    (xs : HostArgs post) (hx : AreArgs kind base post xs vpost) (hd : (objects post xs).Nodup)
    (hw : StandsFor base w (.rustObject o)) (ho : o ∈ objects post xs) :
    eval c (n + 1) (.call (.ret f) name args) side s = .timeout := by
  show callReturn c (eval c n) f args s = _
  rw [callReturn, lazyArgs_run (by simp) ha, hf, dyonFn, EM.bind_assoc]
  exact EM.bind_timeout (popParams_obj_locked (by rw [hb, List.append_assoc]) hx hd hw ho)

omit [VecMath] in
/-- **C74.** Values of the types of the crate are kept by their conversions. -/
theorem C74_keeps [LawfulF32] (t : HTy) (x : t.T) (h : Fits t x) : KeptExactly (.of t) x :=
  ⟨pushVar_not_ref t x h, fun st trace n => C43_round_trip st trace n t x h⟩

omit [FloatOps] [VecMath] in
/-- **C74.** So are structs whose fields are kept, and structs of structs. -/
theorem C74_struct (name : String) (fs : List (String × Conv)) (x : Fields fs) (hd : (fs.map Prod.fst).Nodup)
    (hx : AllKept fs x) : KeptExactly (.obj name fs) x where
  not_ref i := by simp [Conv.obj]
  back st trace n := popFields_pushFields fs x hd hx [] _ fun _ _ => rfl

/-- The value of a field of a struct. -/
def Spec.fieldValue : (fs : List (String × Conv)) → Fields fs → String → Option Val
  | [], _, _ => none
  | f :: fs, x, k => if k = f.1 then some (f.2.push x.1) else fieldValue fs x.2 k

omit [FloatOps] [VecMath] in
/-- **C74.** The program sees a struct as an object with exactly the fields of the struct. -/
theorem C74_struct_fields (name : String) (fs : List (String × Conv)) (x : Fields fs)
    (hd : (fs.map Prod.fst).Nodup) :
    ∃ kvs, (Conv.obj name fs).push x = .object kvs ∧ ∀ k, kvs.lookup k = fieldValue fs x k := by
  refine ⟨pushFields fs x [], rfl, fun k => ?_⟩
  have : ∀ obj, (∀ k ∈ fs.map Prod.fst, obj.lookup k = none) → (pushFields fs x obj).lookup k =
      (fieldValue fs x k).or (obj.lookup k) := by
    induction fs with
    | nil => intro obj _; simp [pushFields, fieldValue]
    | cons f fs ih =>
      obtain ⟨y, ys⟩ := x
      rw [List.map_cons, List.nodup_cons] at hd
      intro obj ho
      rw [pushFields, ih ys hd.2]
      · by_cases hk : k = f.1
        · subst hk
          have hn : fieldValue fs ys f.1 = none := by
            clear ih ho
            have hd1 := hd.1
            clear hd
            induction fs with
            | nil => rfl
            | cons g gs ih =>
              rw [List.map_cons, List.mem_cons, not_or] at hd1
              rw [fieldValue, if_neg hd1.1]
              exact ih _ hd1.2
          rw [hn, lookup_insertKey_self, fieldValue, if_pos rfl]; rfl
        · rw [lookup_insertKey_ne hk, fieldValue, if_neg hk]
      · intro k' hk'
        have hne : k' ≠ f.1 := by rintro rfl; exact hd.1 hk'
        rw [lookup_insertKey_ne hne]
        exact ho k' (by simp [hk'])
  rw [this [] (by simp)]
  simp

/-- Every field of the struct is in the object and can be converted. -/
def Spec.HasFields (obj : List (String × Val)) (st : Stack) (trace : String) (n : Nat) :
    (fs : List (String × Conv)) → Fields fs → Prop
  | [], _ => True
  | f :: fs, x => (∃ v, obj.lookup f.1 = some v ∧ f.2.pop st trace n v = .ok x.1) ∧
      HasFields obj st trace n fs x.2

omit [FloatOps] [VecMath] in
/-- **C74.** An object of the program with all the fields becomes the struct, whatever else is in
it. -/
theorem C74_struct_of_object {st : Stack} {trace : String} {n : Nat} (name : String) (fs : List (String × Conv))
    (x : Fields fs) (obj : List (String × Val)) (h : HasFields obj st trace n fs x) :
    (Conv.obj name fs).pop st trace n (.object obj) = .ok x := by
  show popFields st trace n obj fs = .ok x
  induction fs with
  | nil => rfl
  | cons f fs ih =>
    obtain ⟨y, ys⟩ := x
    obtain ⟨⟨v, hl, hv⟩, hr⟩ := h
    rw [popFields, convField, hl]
    simp only
    rw [hv]
    simp only [Pop.bind]
    rw [ih ys hr]

omit [FloatOps] [VecMath] in
/-- **C74.** An object without some field is an error that names the field, if the fields before it
are there. -/
theorem C74_struct_missing {st : Stack} {trace : String} {n : Nat} (name : String) (pre post : List (String × Conv))
    (f : String × Conv) (x : Fields pre) (obj : List (String × Val)) (h : HasFields obj st trace n pre x)
    (hf : ∀ kv ∈ obj, kv.1 ≠ f.1) :
    (Conv.obj name (pre ++ f :: post)).pop st trace n (.object obj) =
      .err ("Object has no key `" ++ f.1 ++ "`") := by
  show popFields st trace n obj (pre ++ f :: post) = _
  induction pre with
  | nil =>
    have : obj.lookup f.1 = none := by
      rw [List.lookup_eq_none_iff]
      intro p hp
      simpa using fun hc => hf p hp hc.symm
    rw [List.nil_append, popFields, convField, this]; rfl
  | cons g pre ih =>
    obtain ⟨y, ys⟩ := x
    obtain ⟨⟨v, hl, hv⟩, hr⟩ := h
    rw [List.cons_append, popFields, convField, hl]
    simp only
    rw [hv]
    simp only [Pop.bind]
    rw [ih ys hr]
    rfl

omit [FloatOps] [VecMath] in
/-- **C74.** Anything but an object is an error that names the struct. -/
theorem C74_struct_wrong {st : Stack} {trace : String} {n : Nat} (name : String) (fs : List (String × Conv))
    (v : Val) (hr : ∀ i, v ≠ .ref i) (hv : v.typeofVar ≠ "object") :
    (Conv.obj name fs).pop st trace n v =
      .err (trace ++ "\nExpected `" ++ name ++ "`, found `" ++ v.typeofVar ++ "`") := by
  cases v <;> first | exact absurd rfl (hr _) | exact absurd rfl hv | rfl

/-! ## Cases -/

namespace Demo

/-- `dyon_obj!{Point { x, y }}` with numbers. -/
def point : Conv := .obj "Point" [("x", .of .f64), ("y", .of .f64)]

/-- Parameters `(world: #&mut World, p: Point, n: bool)`. -/
def moveParams : List Param := [.obj "World", .val point, .val (.of .bool)]

/-- Arguments for them: object 7, a point in a variable, and a boolean. -/
def moveArgs (x y : F64) : HostArgs moveParams := (7, (x, y, ()), true, ())

example (x y : F64) : AllKept [("x", .of .f64), ("y", .of .f64)] ((x, y, ()) : Fields _) :=
  ⟨⟨by intro i; simp [Conv.of, pushVar, Val.ofF64], fun _ _ _ => rfl⟩,
   ⟨by intro i; simp [Conv.of, pushVar, Val.ofF64], fun _ _ _ => rfl⟩, trivial⟩

theorem point_keeps (x y : F64) : KeptExactly point (x, y, ()) :=
  C74_struct "Point" [("x", .of .f64), ("y", .of .f64)] (x, y, ()) (by simp)
    ⟨⟨by intro i; simp [Conv.of, pushVar, Val.ofF64], fun _ _ _ => rfl⟩,
     ⟨by intro i; simp [Conv.of, pushVar, Val.ofF64], fun _ _ _ => rfl⟩, trivial⟩

theorem moveArgs_are (x y : F64) : AreArgs (fun _ => "World") [point.push (x, y, ())] moveParams (moveArgs x y)
    [.rustObject 7, .ref 0, .ofBool true] :=
  ⟨_, _, rfl, ⟨rfl, .inl rfl⟩, _, _, rfl, ⟨point_keeps x y, .inr ⟨0, rfl, rfl⟩⟩, _, _, rfl,
    ⟨⟨by intro i; simp [Conv.of, pushVar, Val.ofBool], fun _ _ _ => rfl⟩, .inl rfl⟩, rfl⟩

/-- The hypotheses of `C74_call` are met, with a parameter of each kind. -/
example (c : ECfg) (n : Nat) (r : Conv) (inner : HostArgs moveParams → EM r.T) (s : St) (x y : F64)
    (hs : s.stack = [point.push (x, y, ())]) :
    let c := { c with retFn := fun _ => dyonFn (fun _ => "World") (n + 1) moveParams r inner }
    eval c (n + 2) (.call (.ret 0) "move" [.const (.rustObject 7), .const (.ref 0), .const (.ofBool true)]) .right s =
      (do let y ← inner (moveArgs x y); pure (some (r.push y), Flow.cont) : EM R) s := by
  intro c
  have := C74_call (c := c) (n := n + 1) (kind := fun _ => "World") (f := 0) (name := "move") (side := .right)
    (args := [.const (.rustObject 7), .const (.ref 0), .const (.ofBool true)]) (s := s) (r := r) (inner := inner)
    (vs := [.rustObject 7, .ref 0, .ofBool true]) (base := [point.push (x, y, ())])
    (u := { s with stack := s.stack ++ [.rustObject 7, .ref 0, .ofBool true] }) rfl
    (.cons rfl (.cons rfl (.cons rfl (by simpa using ArgsTo.nil)))) (by rw [hs]) (moveArgs x y) (moveArgs_are x y) (by simp [moveParams, objects])
  rw [this]
  congr 1
  rw [← hs]

/-- Two parameters of type `#&World` and the same object for both. -/
example (c : ECfg) (n : Nat) (r : Conv) (inner : HostArgs [.obj "World", .obj "World"] → EM r.T) (s : St) :
    let c := { c with retFn := fun _ => dyonFn (fun _ => "World") (n + 1) [.obj "World", .obj "World"] r inner }
    eval c (n + 2) (.call (.ret 0) "same" [.const (.rustObject 7), .const (.rustObject 7)]) .right s = .timeout := by
  intro c
  exact C74_same_object (c := c) (n := n + 1) (kind := fun _ => "World") (f := 0) (name := "same") (side := .right)
    (args := [.const (.rustObject 7), .const (.rustObject 7)]) (s := s) (r := r) (inner := inner) (pre := [])
    (post := [.obj "World"]) (vpre := []) (vpost := [.rustObject 7]) (w := .rustObject 7) (o := 7) (base := s.stack)
    (u := { s with stack := s.stack ++ [.rustObject 7, .rustObject 7] }) rfl
    (.cons rfl (.cons rfl (by simpa using ArgsTo.nil))) rfl ((7, ()) : HostArgs [.obj "World"])
    ⟨_, _, rfl, ⟨rfl, .inl rfl⟩, rfl⟩ (by decide) (.inl rfl) (by decide)

end Demo

end
end Dyon
