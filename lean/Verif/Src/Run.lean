import Lean
import Verif.Src.Attr
import Verif.Src.Sem

/-!
# Running quoted programs in proofs

`go_run` computes the meaning of a program on values that are partly unknown, as far as the conditions it meets follow from the
hypotheses by linear arithmetic. The first operand of `>>=` is computed before the second is looked at.
-/

namespace Verif.Src

variable {E : Type}

/-- Only the first operand of `>>=` is simplified. -/
theorem bind_first {α β : Type} {x y : R α} (f : α → R β) (h : x = y) : (x >>= f) = (y >>= f) := by rw [h]

theorem pure_first {α β : Type} (a : α) (f : α → R β) : ((pure a : R α) >>= f) = f a := rfl

open Lean Meta Simp in
/-- Simplifies the first operand of `>>=`; the second only once the first is a value. -/
simproc_decl bindFirst (@Bind.bind _ _ _ _ _ _) := fun e => do
  let_expr Bind.bind m inst α β x f := e | return .continue
  let r ← simp x
  let head := mkApp5 e.getAppFn m inst α β r.expr
  let first ← match r.proof? with
    | none => mkEqRefl e
    | some h => mkCongrFun (← mkCongrArg (mkApp4 e.getAppFn m inst α β) h) f
  match_expr r.expr with
  | Pure.pure _ _ _ a =>
    let next := (Expr.app f a).headBeta
    let h ← mkAppOptM ``pure_first #[α, β, a, f]
    return .visit { expr := next, proof? := some (← mkEqTrans first h) }
  | stuck _ =>
    let h ← mkAppOptM ``stuck_bind #[α, β, f]
    return .done { expr := ← mkAppOptM ``stuck #[β], proof? := some (← mkEqTrans first h) }
  | panic _ s =>
    let h ← mkAppOptM ``panic_bind #[α, β, s, f]
    return .done { expr := ← mkAppOptM ``panic #[β, s], proof? := some (← mkEqTrans first h) }
  | _ => return .done { expr := .app head f, proof? := some first }

theorem decide_yes {p : Prop} [Decidable p] (h : p) : decide p = true := decide_eq_true h
theorem decide_no {p : Prop} [Decidable p] (h : ¬ p) : decide p = false := decide_eq_false h

theorem ite_yes {α : Type} {p : Prop} [Decidable p] (h : p) (a b : α) : (if p then a else b) = a := if_pos h
theorem ite_no {α : Type} {p : Prop} [Decidable p] (h : ¬ p) (a b : α) : (if p then a else b) = b := if_neg h

theorem goGet_at {α : Type} {l : List α} {i : Int} (h0 : 0 ≤ i) (h1 : i.toNat < l.length) : goGet l i = .ok l[i.toNat] := by
  simp [goGet, h0, h1]

theorem lookup_here {β : Type} (a : String) (v : β) (l : List (String × β)) : List.lookup a ((a, v) :: l) = some v := by
  simp [List.lookup]

theorem lookup_there {β : Type} {a b : String} (h : (a == b) = false) (v : β) (l : List (String × β)) :
    List.lookup a ((b, v) :: l) = List.lookup a l := by
  simp [List.lookup, h]

open Lean Meta Simp in
/-- Looks a name up in a list of names. -/
simproc_decl lookupName (List.lookup _ (List.cons _ _)) := fun e => do
  let_expr List.lookup _ β _ a l := e | return .continue
  let_expr List.cons _ p rest := l | return .continue
  let_expr Prod.mk _ _ b v := p | return .continue
  let .lit (.strVal s) := a | return .continue
  let .lit (.strVal t) := b | return .continue
  if s == t then
    return .done { expr := ← mkAppOptM ``Option.some #[β, v], proof? := some (mkApp4 (mkConst ``lookup_here) β a v rest) }
  else
    let h := mkApp2 (mkConst ``Eq.refl [1]) (mkConst ``Bool) (mkConst ``false)
    let fn := e.appFn!
    return .visit { expr := .app fn rest, proof? := some (mkApp6 (mkConst ``lookup_there) β a b h v rest) }

attribute [go_eval] stuck_bind panic_bind List.lookup_nil
  apply bindParams bindResults answer execs exec.eq_1 exec.eq_2 exec.eq_3 exec.eq_4 exec.eq_5 exec.eq_6 exec.eq_9 exec.eq_10
  exec.eq_11 exec.eq_12 evals eval test bound addr packageOf qualified boxParams boxOf
  one field getPath setPath setField stores ref refs update declare declares initial
  binop unop arith shift join wrap_int builtin builtins make makeSlice convert literal fill invoke method
  typeName leave pack round kindOf zero zeroSimple zeroFields mapOf wholeOf arrayOf arrayTy declareArray

theorem wrap_uint {n : Int} (h : 0 ≤ n) (h' : n < 2 ^ 64) : wrap .uint n = n := by
  show n % 2 ^ 64 = n
  omega

/-! ## Loops -/

/-- The rounds of a `for` statement. -/
def rounds (X : Ctx E) (C : Calls E) (c : Option Expr) (post body : List Stmt) (env : Env E) (m : Mem E) :
    R (Flow E × Env E × Mem E) :=
  loop (fun (s : Env E × Mem E) => do
    let (go, m) ← test X C s.1 c s.2
    if go = true then
      let x ← execs X C body s.1 m
      round s.1 x (fun env m => execs X C post env m)
    else pure (.inr (.next, s.1, m))) (env, m)

@[go_eval] theorem exec_loop (X : Ctx E) (C : Calls E) (init : List Stmt) (c : Option Expr) (post body : List Stmt) (env : Env E)
    (m : Mem E) : exec X C (.loop init c post body) env m = (do
      let (_, env', m) ← execs X C init env m
      let (f, env', m) ← rounds X C c post body env' m
      pure (f, leave env env', m)) := by
  rw [exec]; rfl

/-- What comes after the body in a round. -/
@[go_eval]
def roundEnd (X : Ctx E) (C : Calls E) (c : Option Expr) (post body : List Stmt) (outer : Env E) (x : Flow E × Env E × Mem E) :
    R (Flow E × Env E × Mem E) :=
  match x.1 with
  | .brk => pure (.next, leave outer x.2.1, x.2.2)
  | .ret vs => pure (.ret vs, leave outer x.2.1, x.2.2)
  | _ => do
    let (_, env, m) ← execs X C post (leave outer x.2.1) x.2.2
    rounds X C c post body (leave outer env) m

theorem rounds_eq (X : Ctx E) (C : Calls E) (c : Option Expr) (post body : List Stmt) (env : Env E) (m : Mem E) :
    rounds X C c post body env m = (do
      let (go, m) ← test X C env c m
      if go = true then
        let x ← execs X C body env m
        roundEnd X C c post body env x
      else pure (.next, env, m)) := by
  rw [rounds, loop]
  simp only [bind_assoc]
  congr 1
  funext ⟨go, m'⟩
  simp only
  split
  · simp only [bind_assoc]
    congr 1
    funext ⟨f, env', m''⟩
    cases f
    all_goals simp only [round, roundEnd, bind_assoc, pure_bind]
    all_goals rfl
  · rfl

/-- The rounds of a `range` statement from index `i` on. -/
def turns (X : Ctx E) (C : Calls E) (k v : String) (s : Val E) (n : Int) (body : List Stmt) (i : Int) (env : Env E) (m : Mem E) :
    R (Flow E × Env E × Mem E) :=
  loop (fun (st : Int × Env E × Mem E) => do
    if st.1 < n then
      let w ← (if v = "_" then pure .nil else index st.2.2 s (.num .int st.1))
      let (env', m) ← declares X st.2.1 st.2.2 [k, v] [.num .int st.1, w]
      let x ← execs X C body env' m
      let y ← round st.2.1 x (fun env m => pure (.next, env, m))
      match y with
      | .inl s => pure (.inl (st.1 + 1, s.1, s.2))
      | .inr r => pure (.inr r)
    else pure (.inr (.next, st.2.1, st.2.2))) (i, env, m)

/-- The rounds of `range` over a map, for the entries `l` that are left. -/
def roundsMap (X : Ctx E) (C : Calls E) (k v : String) (id : Nat) (body : List Stmt) (l : List (Val E × Val E)) (env : Env E) (m : Mem E) :
    R (Flow E × Env E × Mem E) :=
  visit id (fun key w env m => do
    let (env', m) ← declares X env m [k, v] [key, w]
    let x ← execs X C body env' m
    round env x (fun env m => pure (.next, env, m))) l env m

@[go_eval] theorem exec_range (X : Ctx E) (C : Calls E) (k v : String) (e : Expr) (body : List Stmt) (env : Env E) (m : Mem E) :
    exec X C (.range k v e body) env m = (do
      let (s, m) ← eval X C env e m >>= one
      match mapOf s with
      | some id =>
        match m.maps[id]? with
        | some o => do
          let (f, env', m) ← roundsMap X C k v id body (X.order m o.entries) env m
          pure (f, leave env env', m)
        | none => stuck
      | none => do
        let n ← len m s
        match n with
        | .num _ n => do
          let (f, env', m) ← turns X C k v s n body 0 env m
          pure (f, leave env env', m)
        | _ => stuck) := by
  rw [exec]; rfl

theorem turns_done (X : Ctx E) (C : Calls E) (k v : String) (s : Val E) (body : List Stmt) {i n : Int} (h : n ≤ i) (env : Env E) (m : Mem E) :
    turns X C k v s n body i env m = pure (.next, env, m) := by
  rw [turns, loop, if_neg (by simp only; omega)]
  rfl

/-- A round that goes on to the next. -/
theorem turns_next {X : Ctx E} {C : Calls E} {k v : String} {s : Val E} {body : List Stmt} {i n : Int} (h : i < n) {env : Env E} {m : Mem E}
    (hv : v ≠ "_") {w : Val E} (hw : index m s (.num .int i) = pure w) {env' : Env E} {m' : Mem E}
    (hd : declares X env m [k, v] [.num .int i, w] = pure (env', m')) {env2 : Env E} {m2 : Mem E}
    (hb : execs X C body env' m' = pure (.next, env2, m2)) :
    turns X C k v s n body i env m = turns X C k v s n body (i + 1) (leave env (leave env env2)) m2 := by
  rw [turns, loop, if_pos h, turns]
  simp only [hv, if_false, hw, pure_bind, hd, hb, round]

/-- The cell of a variable that lives in memory. -/
@[go_eval]
def boxNo : Val E → Option Nat
  | .box a => some a
  | _ => none

section
variable (m : Mem E) (env : Env E) (v : Val E)
@[go_eval] theorem fetch_num (k : Kind) (n : Int) : fetch m (.num k n) = pure (.num k n) := rfl
@[go_eval] theorem fetch_bool (b : Bool) : fetch m (.bool b) = pure (.bool b) := rfl
@[go_eval] theorem fetch_nil : fetch m (.nil : Val E) = pure .nil := rfl
@[go_eval] theorem fetch_elem (e : E) : fetch m (.elem e) = pure (.elem e) := rfl
@[go_eval] theorem fetch_slice (a o l c : Nat) : fetch m (.slice a o l c) = pure (.slice a o l c) := rfl
@[go_eval] theorem fetch_ptr (a i : Nat) (p : List String) : fetch m (.ptr a i p) = pure (.ptr a i p) := rfl
@[go_eval] theorem fetch_struct (t : String) (fs : List (String × Val E)) :
    fetch m (.struct t fs) = pure (.struct t fs) := rfl
@[go_eval] theorem fetch_map (i : Nat) : fetch m (.map i : Val E) = pure (.map i) := rfl
@[go_eval] theorem fetch_fn (f : String) : fetch m (.fn f : Val E) = pure (.fn f) := rfl
@[go_eval] theorem fetch_box (a : Nat) : fetch m (.box a : Val E) =
    (match m.cell a 0 with | some v => pure v | none => stuck) := rfl
@[go_eval] theorem coerce_int (p : Prog) (t : Ty) (n : Int) : coerce p t (.num .int n : Val E) = .num .int n := by cases t <;> rfl
@[go_eval] theorem settle_int (n : Int) : settle (.num .int n : Val E) = .num .int n := rfl
@[go_eval] theorem coerce_uint (p : Prog) (t : Ty) (n : Int) : coerce p t (.num .uint n : Val E) = .num .uint n := by cases t <;> rfl
@[go_eval] theorem settle_uint (n : Int) : settle (.num .uint n : Val E) = .num .uint n := rfl
@[go_eval] theorem coerce_u64 (p : Prog) (t : Ty) (n : Int) : coerce p t (.num .u64 n : Val E) = .num .u64 n := by cases t <;> rfl
@[go_eval] theorem settle_u64 (n : Int) : settle (.num .u64 n : Val E) = .num .u64 n := rfl
@[go_eval] theorem coerce_u32 (p : Prog) (t : Ty) (n : Int) : coerce p t (.num .u32 n : Val E) = .num .u32 n := by cases t <;> rfl
@[go_eval] theorem settle_u32 (n : Int) : settle (.num .u32 n : Val E) = .num .u32 n := rfl
@[go_eval] theorem coerce_u8 (p : Prog) (t : Ty) (n : Int) : coerce p t (.num .u8 n : Val E) = .num .u8 n := by cases t <;> rfl
@[go_eval] theorem settle_u8 (n : Int) : settle (.num .u8 n : Val E) = .num .u8 n := rfl
@[go_eval] theorem coerce_named (p : Prog) (t : Ty) (s : String) (n : Int) : coerce p t (.num (.named s) n : Val E) = .num (.named s) n := by cases t <;> rfl
@[go_eval] theorem settle_named (s : String) (n : Int) : settle (.num (.named s) n : Val E) = .num (.named s) n := rfl
@[go_eval] theorem coerce_bool (p : Prog) (t : Ty) (b : Bool) : coerce p t (.bool b : Val E) = .bool b := by cases t <;> rfl
@[go_eval] theorem settle_bool (b : Bool) : settle (.bool b : Val E) = .bool b := rfl
@[go_eval] theorem coerce_str (p : Prog) (t : Ty) (s : String) : coerce p t (.str s : Val E) = .str s := by cases t <;> rfl
@[go_eval] theorem settle_str (s : String) : settle (.str s : Val E) = .str s := rfl
@[go_eval] theorem coerce_nil (p : Prog) (t : Ty) : coerce p t (.nil : Val E) = .nil := by cases t <;> rfl
@[go_eval] theorem settle_nil : settle (.nil : Val E) = .nil := rfl
@[go_eval] theorem coerce_elem (p : Prog) (t : Ty) (e : E) : coerce p t (.elem e : Val E) = .elem e := by cases t <;> rfl
@[go_eval] theorem settle_elem (e : E) : settle (.elem e : Val E) = .elem e := rfl
@[go_eval] theorem coerce_slice (p : Prog) (t : Ty) (a o l c : Nat) : coerce p t (.slice a o l c : Val E) = .slice a o l c := by cases t <;> rfl
@[go_eval] theorem settle_slice (a o l c : Nat) : settle (.slice a o l c : Val E) = .slice a o l c := rfl
@[go_eval] theorem coerce_ptr (p : Prog) (t : Ty) (a i : Nat) (q : List String) : coerce p t (.ptr a i q : Val E) = .ptr a i q := by cases t <;> rfl
@[go_eval] theorem settle_ptr (a i : Nat) (q : List String) : settle (.ptr a i q : Val E) = .ptr a i q := rfl
@[go_eval] theorem coerce_struct (p : Prog) (t : Ty) (u : String) (fs : List (String × Val E)) : coerce p t (.struct u fs : Val E) = .struct u fs := by cases t <;> rfl
@[go_eval] theorem settle_struct (u : String) (fs : List (String × Val E)) : settle (.struct u fs : Val E) = .struct u fs := rfl
@[go_eval] theorem coerce_map (p : Prog) (t : Ty) (i : Nat) : coerce p t (.map i : Val E) = .map i := by cases t <;> rfl
@[go_eval] theorem settle_map (i : Nat) : settle (.map i : Val E) = .map i := rfl
@[go_eval] theorem coerce_fn (p : Prog) (t : Ty) (f : String) : coerce p t (.fn f : Val E) = .fn f := by cases t <;> rfl
@[go_eval] theorem settle_fn (f : String) : settle (.fn f : Val E) = .fn f := rfl
@[go_eval] theorem coerce_lit (p : Prog) (s : String) (ts : List Ty) (n : Int) : coerce p (.name s ts) (.num .lit n : Val E) =
    (match kindOf p s with | some k => .num k n | none => .num .lit n) := rfl
@[go_eval] theorem coerce_toSlice (p : Prog) (t : Ty) : coerce p (.slice t) v = v := rfl
@[go_eval] theorem coerce_toPtr (p : Prog) (t : Ty) : coerce p (.ptr t) v = v := rfl
@[go_eval] theorem coerce_toMap (p : Prog) (t u : Ty) : coerce p (.map t u) v = v := rfl
@[go_eval] theorem coerce_toArr (p : Prog) (n : Nat) (t : Ty) : coerce p (.arr n t) v = v := rfl
@[go_eval] theorem coerce_toFunc (p : Prog) : coerce p .func v = v := rfl
@[go_eval] theorem settle_lit (n : Int) : settle (.num .lit n : Val E) = .num .int n := rfl
@[go_eval] theorem len_nil : len m (.nil : Val E) = pure (.num .int 0) := rfl
@[go_eval] theorem len_slice (a o l c : Nat) : len m (.slice a o l c : Val E) = pure (.num .int l) := rfl
@[go_eval] theorem reslice_slice {a o l c : Nat} {lo hi : Int} (h : 0 ≤ lo ∧ lo ≤ hi ∧ hi ≤ c) :
    reslice (.slice a o l c : Val E) lo hi = pure (.slice a (o + lo.toNat) (hi - lo).toNat (c - lo.toNat)) := by
  simp only [reslice, h, and_self, if_true]
@[go_eval] theorem append_fits {X : Ctx E} {a o l c : Nat} {xs : List (Val E)} (h : l + xs.length ≤ c) :
    append X m (.slice a o l c) xs = pure (.slice a o (l + xs.length) c, m.puts a (o + l) xs) := by
  simp only [append, h, if_true]
@[go_eval] theorem load_ptr (a i : Nat) (p : List String) : load m (.ptr a i p) =
    (match m.cell a i with
    | some v =>
      match getPath p v with
      | some w => pure w
      | none => stuck
    | none => stuck) := rfl
@[go_eval] theorem fit_elem (w : Val E) (e : E) : fit w (.elem e) = .elem e := by cases w <;> rfl
@[go_eval] theorem fit_slice (w : Val E) (a o l c : Nat) : fit w (.slice a o l c) = .slice a o l c := by cases w <;> rfl
@[go_eval] theorem fit_nil (w : Val E) : fit w (.nil) = .nil := by cases w <;> rfl
@[go_eval] theorem fit_num (k k' : Kind) (n i : Int) : fit (.num k n : Val E) (.num k' i) =
    .num (if k' = .lit then k else k') i := by cases k' <;> rfl
@[go_eval] theorem fit_struct (w : Val E) (t : String) (fs : List (String × Val E)) :
    fit w (.struct t fs) = .struct t fs := by cases w <;> rfl
@[go_eval] theorem fit_bool (w : Val E) (b : Bool) : fit w (.bool b) = .bool b := by cases w <;> rfl
@[go_eval] theorem fit_ptr (w : Val E) (a i : Nat) (p : List String) : fit w (.ptr a i p) = .ptr a i p := by cases w <;> rfl
@[go_eval] theorem fit_map (w : Val E) (i : Nat) : fit w (.map i) = .map i := by cases w <;> rfl
@[go_eval] theorem fit_fn (w : Val E) (f : String) : fit w (.fn f) = .fn f := by cases w <;> rfl
@[go_eval] theorem callOn_struct (X : Ctx E) (C : Calls E) (f t : String) (fs : List (String × Val E)) (p : Option (Val E))
    (vs : List (Val E)) (s : Bool) : callOn X C f (.struct t fs) p vs s m = method X C f (.struct t fs) p vs s m := rfl
@[go_eval] theorem callOn_num (X : Ctx E) (C : Calls E) (f : String) (k : Kind) (n : Int) (p : Option (Val E))
    (vs : List (Val E)) (s : Bool) : callOn X C f (.num k n) p vs s m = method X C f (.num k n) p vs s m := rfl
@[go_eval] theorem callOn_elem (X : Ctx E) (C : Calls E) (f : String) (e : E) (p : Option (Val E))
    (vs : List (Val E)) (s : Bool) : callOn X C f (.elem e) p vs s m = method X C f (.elem e) p vs s m := rfl
@[go_eval] theorem callOn_slice (X : Ctx E) (C : Calls E) (f : String) (a o l c : Nat) (p : Option (Val E))
    (vs : List (Val E)) (s : Bool) : callOn X C f (.slice a o l c) p vs s m = method X C f (.slice a o l c) p vs s m := rfl
@[go_eval] theorem callOn_ptr (X : Ctx E) (C : Calls E) (f : String) (a i : Nat) (q : List String) (p : Option (Val E))
    (vs : List (Val E)) (s : Bool) : callOn X C f (.ptr a i q) p vs s m = (do
      let w ← load m (.ptr a i q)
      method X C f w (some (.ptr a i q)) vs s m) := rfl
@[go_eval] theorem callOn_nil (X : Ctx E) (C : Calls E) (f : String) (p : Option (Val E))
    (vs : List (Val E)) (s : Bool) : callOn X C f .nil p vs s m =
      (if X.sliceTy.isSome then method X C f .nil p vs s m
      else panic "invalid memory address or nil pointer dereference") := rfl
@[go_eval] theorem store_blank : store env m v .blank = pure (env, m) := rfl
@[go_eval] theorem store_var (x : String) : store env m v (.var x) =
    (match env.lookup x with
    | some w =>
      match boxNo w with
      | some a =>
        match m.cell a 0 with
        | some w => pure (env, m.put a 0 (fit w v))
        | none => stuck
      | none => pure (update x v env, m)
    | none => stuck) := by
  rw [store]
  cases env.lookup x with
  | none => rfl
  | some w => cases w <;> rfl
@[go_eval] theorem store_fld (x f : String) : store env m v (.fld x f) =
    (match env.lookup x with
    | some (.box a) =>
      match m.cell a 0 with
      | some (.struct t fs) => pure (env, m.put a 0 (.struct t (setField f v fs)))
      | _ => stuck
    | some (.struct t fs) => pure (update x (.struct t (setField f v fs)) env, m)
    | _ => stuck) := rfl
@[go_eval] theorem store_ptr (a i : Nat) (p : List String) : store env m v (.ptr (.ptr a i p)) =
    (match m.cell a i with
    | some w =>
      match setPath v p w with
      | some w' => pure (env, m.put a i w')
      | none => stuck
    | none => stuck) := rfl
end

attribute [go_eval] List.mem_cons List.not_mem_nil or_false false_or or_true true_or if_true if_false and_self and_true true_and
  and_false false_and not_true not_false_iff List.length_cons List.length_nil List.drop_zero List.map_cons List.map_nil
  List.cons_append List.nil_append List.zip_cons_cons List.zip_nil_left List.head?_cons List.head?_nil Option.isSome_some
  Option.isSome_none Option.map_some Option.map_none Option.toList_some Option.toList_none


open Lean Parser.Tactic in
/-- Computes, with further equations. -/
macro "go_run" "[" ls:simpLemma,* "]" : tactic =>
  `(tactic| simp (discharger := first | omega | (simp; done) | (simp only [List.length_set]; omega) | fail) only [go_eval, ↓bindFirst, lookupName, ↓reduceIte, reduceIte, String.reduceEq,
    String.reduceNe, String.reduceBEq, String.reduceBNe, String.reduceAppend, reduceCtorEq, Nat.reduceAdd, Nat.reduceSub,
    Nat.reduceEqDiff, Nat.reduceBEq, Nat.reduceMul, Bool.false_eq_true, bne_self_eq_false, beq_self_eq_true, List.drop, Int.cast_ofNat_Int, Int.reduceSub, Int.reduceToNat, Int.tdiv_eq_ediv_of_nonneg, Nat.add_zero, Nat.zero_add, Nat.sub_zero, decide_yes, decide_no, ite_yes, ite_no,
    $ls,*])

end Verif.Src
