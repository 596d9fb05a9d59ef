import Verif.Cond.Spec
import Verif.Dsl.Props
/-! # Conditionals of clauses (C135) -/
namespace Nbdl.Cond
open Dsl Spec
variable {σ V : Type}

/-! ## Looking up -/

/-- The rest of a path, from the object of its root. -/
def evalFrom (w : World σ V) (ρ : Env Nat V) (s : σ) (v : V) : List Expr → Option (σ × V)
  | [] => some (s, v)
  | k :: ks =>
    match evalNode w ρ s v k with
    | none => none
    | some (s, v) => evalPath w ρ s v ks

theorem evalExpr_path (w : World σ V) (ρ : Env Nat V) (s : σ) (y : Nat) (l : List Expr) :
    evalExpr w ρ s (.path y l) = (ρ y).bind fun v => evalFrom w ρ s v l := by
  cases l with
  | nil => rw [evalExpr]; cases ρ y <;> rfl
  | cons k l =>
    rw [evalExpr]
    cases ρ y with
    | none => rfl
    | some v => rfl

theorem evalNode_path (w : World σ V) (ρ : Env Nat V) (s : σ) (u : V) (y : Nat) (l : List Expr) :
    evalNode w ρ s u (.path y l) = match evalExpr w ρ s (.path y l) with
      | none => none
      | some (s, k) => some (w.matchStore s u (some k)) := by
  cases l with
  | nil => rw [evalNode, evalExpr]; cases ρ y <;> rfl
  | cons k l =>
    rw [evalNode, evalExpr]
    cases ρ y with
    | none => rfl
    | some v =>
      simp only
      cases evalNode w ρ s v k with
      | none => rfl
      | some p => rfl

mutual
theorem still_node {w : World σ V} (hw : Still w) (ρ : Env Nat V) (s s' : σ) (u : V) : ∀ e : Expr,
    evalNode w ρ s u e = (evalNode w ρ s' u e).map fun p => (s, p.2)
  | .var x => by
    rw [evalNode, evalNode]
    cases ρ x with
    | none => rfl
    | some k => simp [Prod.ext_iff, hw.lookup, hw.same s s']
  | .sym t => by
    rw [evalNode, evalNode]
    cases memberName t with
    | none => simp [Prod.ext_iff, hw.lookup, hw.same s s']
    | some m => simp [hw.lookup, hw.same s s', hw.member s s']
  | .num i => by rw [evalNode, evalNode]; simp [Prod.ext_iff, hw.lookup, hw.same s s']
  | .str t => by rw [evalNode, evalNode]; simp [Prod.ext_iff, hw.lookup, hw.same s s']
  | .path root [] => by
    rw [evalNode, evalNode]
    cases ρ root with
    | none => rfl
    | some k => simp [Prod.ext_iff, hw.lookup, hw.same s s']
  | .path root (key :: keys) => by
    rw [evalNode, evalNode]
    cases ρ root with
    | none => rfl
    | some r =>
      simp only
      rw [still_node hw ρ s s' r key]
      cases h : evalNode w ρ s' r key with
      | none => rfl
      | some p =>
        have hp : p.1 = s' := by
          have := still_node hw ρ s' s' r key
          rw [h] at this
          simpa [Prod.ext_iff] using this
        simp only [Option.map_some]
        rw [still_path hw ρ s s' p.2 keys, ← hp]
        cases evalPath w ρ p.1 p.2 keys with
        | none => rfl
        | some q => simp [Prod.ext_iff, hw.lookup, hw.same s q.1]
  | .visit _ _ => by rw [evalNode, evalNode]; rfl

theorem still_path {w : World σ V} (hw : Still w) (ρ : Env Nat V) (s s' : σ) (u : V) : ∀ es : List Expr,
    evalPath w ρ s u es = (evalPath w ρ s' u es).map fun p => (s, p.2)
  | [] => by rw [evalPath, evalPath]; simp [Prod.ext_iff, hw.lookup, hw.same s s']
  | key :: keys => by
    rw [evalPath, evalPath]
    rw [still_node hw ρ s s' u key]
    cases h : evalNode w ρ s' u key with
    | none => rfl
    | some p =>
      have hp : p.1 = s' := by
        have := still_node hw ρ s' s' u key
        rw [h] at this
        simpa [Prod.ext_iff] using this
      simp only [Option.map_some]
      rw [still_path hw ρ s s' p.2 keys, ← hp]
end

theorem still_from {w : World σ V} (hw : Still w) (ρ : Env Nat V) (s s' : σ) (u : V) (es : List Expr) :
    evalFrom w ρ s u es = (evalFrom w ρ s' u es).map fun p => (s, p.2) := by
  cases es with
  | nil => rfl
  | cons key keys =>
    simp only [evalFrom]
    rw [still_node hw ρ s s' u key]
    cases h : evalNode w ρ s' u key with
    | none => rfl
    | some p =>
      have hp : p.1 = s' := by
        have := still_node hw ρ s' s' u key
        rw [h] at this
        simpa [Prod.ext_iff] using this
      simp only [Option.map_some]
      rw [still_path hw ρ s s' p.2 keys, ← hp]

/-- The nodes of an unwrapped store are those of the store. -/
theorem node_unwrapped {w : World σ V} (hw : Still w) (ρ : Env Nat V) (s : σ) (u : V) (e : Expr) :
    evalNode w ρ s (w.matchStore s u none).2 e = evalNode w ρ s u e := by
  have key : ∀ k, w.matchStore s (w.matchStore s u none).2 k = w.matchStore s u k := by
    intro k
    rw [Prod.ext_iff, hw.lookup, hw.lookup]
    exact ⟨rfl, hw.unwrapped s u k⟩
  have key' : ∀ s' k, w.matchStore s' (w.matchStore s u none).2 k = w.matchStore s' u k := by
    intro s' k
    rw [hw.same s s' u none, Prod.ext_iff, hw.lookup, hw.lookup]
    exact ⟨rfl, hw.unwrapped s' u k⟩
  cases e with
  | var x => rw [evalNode, evalNode]; simp [key]
  | sym t => rw [evalNode, evalNode]; simp [key]
  | num i => rw [evalNode, evalNode]; simp [key]
  | str t => rw [evalNode, evalNode]; simp [key]
  | path y l => rw [evalNode_path, evalNode_path]; simp [key']
  | visit c as => rw [evalNode, evalNode]

theorem path_append {w : World σ V} (hw : Still w) (ρ : Env Nat V) (s : σ) (b : List Expr) : ∀ (a : List Expr) (u v : V),
    evalPath w ρ s u a = some (s, v) → evalPath w ρ s u (a ++ b) = evalFrom w ρ s v b
  | [], u, v, h => by
    rw [evalPath] at h
    have h' := congrArg Prod.snd (Option.some.inj h)
    simp only at h'
    cases b with
    | nil => rw [List.nil_append, evalPath, h]; rfl
    | cons k b =>
      rw [List.nil_append, evalPath, evalFrom, ← h', node_unwrapped hw]
      cases evalNode w ρ s u k <;> rfl
  | k :: a, u, v, h => by
    rw [evalPath] at h
    rw [List.cons_append, evalPath]
    cases hk : evalNode w ρ s u k with
    | none => rw [hk] at h; cases h
    | some p =>
      rw [hk] at h
      have hp : p.1 = s := by
        have := still_node hw ρ s s u k
        rw [hk] at this
        simpa [Prod.ext_iff] using this
      simp only at h ⊢
      rw [hp] at h ⊢
      exact path_append hw ρ s b a p.2 v h

theorem from_append {w : World σ V} (hw : Still w) (ρ : Env Nat V) (s : σ) (a b : List Expr) (u v : V)
    (h : evalFrom w ρ s u a = some (s, v)) : evalFrom w ρ s u (a ++ b) = evalFrom w ρ s v b := by
  cases a with
  | nil => cases Option.some.inj h; rfl
  | cons k a =>
    simp only [evalFrom] at h
    simp only [List.cons_append, evalFrom]
    cases hk : evalNode w ρ s u k with
    | none => rw [hk] at h; cases h
    | some p =>
      rw [hk] at h
      have hp : p.1 = s := by
        have := still_node hw ρ s s u k
        rw [hk] at this
        simpa [Prod.ext_iff] using this
      simp only at h ⊢
      rw [hp] at h ⊢
      exact path_append hw ρ s b a p.2 v h

/-! ## A path in the place of a variable -/

/-- `v` is what the path leads to, at any time. -/
def Leads (w : World σ V) (ρ : Env Nat V) (r : Nat) (ks : List Expr) (v : V) : Prop :=
  ∀ s, evalExpr w ρ s (.path r ks) = some (s, v)

theorem leads_append {w : World σ V} (hw : Still w) {ρ : Env Nat V} {r : Nat} {ks : List Expr} {v : V}
    (h : Leads w ρ r ks v) (s : σ) (l : List Expr) :
    evalExpr w ρ s (.path r (ks ++ l)) = evalFrom w ρ s v l := by
  have hs := h s
  rw [evalExpr_path] at hs ⊢
  cases hr : ρ r with
  | none => rw [hr] at hs; cases hs
  | some u =>
    rw [hr] at hs
    exact from_append hw ρ s ks l u v hs

theorem leads_of {w : World σ V} (hw : Still w) {ρ : Env Nat V} {r : Nat} {ks : List Expr} {s s' : σ} {v : V}
    (h : evalExpr w ρ s (.path r ks) = some (s', v)) : s' = s ∧ Leads w ρ r ks v := by
  rw [evalExpr_path] at h
  cases hr : ρ r with
  | none => rw [hr] at h; cases h
  | some u =>
    rw [hr] at h
    simp only [Option.bind_some] at h
    have h1 := still_from hw ρ s s u ks
    rw [h] at h1
    simp only [Option.map_some, Option.some.injEq, Prod.mk.injEq, and_true] at h1
    refine ⟨h1, ?_⟩
    intro t
    rw [evalExpr_path, hr]
    simp only [Option.bind_some]
    rw [still_from hw ρ t s u ks, h]
    rfl

theorem calleeMember_subst (x r : Nat) (ks : List Expr) (e : Expr) : calleeMember (substExpr x r ks e) = calleeMember e := by
  cases e with
  | var y => rw [substExpr]; split <;> rfl
  | path y l => rw [substExpr]; split <;> rfl
  | visit c as => rw [substExpr]; rfl
  | _ => rw [substExpr]

mutual
theorem subst_expr {w : World σ V} (hw : Still w) {ρ : Env Nat V} {r : Nat} {ks : List Expr} {v : V}
    (h : Leads w ρ r ks v) (x : Nat) (s : σ) : ∀ e : Expr,
    evalExpr w ρ s (substExpr x r ks e) = evalExpr w (ρ.set x v) s e
  | .var y => by
    rw [substExpr]
    by_cases hy : y = x
    · rw [if_pos hy, h s, evalExpr, hy]; simp [Env.set]
    · rw [if_neg hy, evalExpr, evalExpr]; simp [Env.set, hy]
  | .sym t => by rw [substExpr, evalExpr, evalExpr]
  | .num i => by rw [substExpr, evalExpr, evalExpr]
  | .str t => by rw [substExpr, evalExpr, evalExpr]
  | .path y l => by
    rw [substExpr]
    by_cases hy : y = x
    · rw [if_pos hy, leads_append hw h, evalExpr_path, hy, subst_from hw h x s v l]; simp [Env.set]
    · rw [if_neg hy, evalExpr_path, evalExpr_path]
      have e : (ρ.set x v) y = ρ y := by simp [Env.set, hy]
      rw [e]
      cases ρ y with
      | none => rfl
      | some u => exact subst_from hw h x s u l
  | .visit c as => by
    rw [substExpr, evalExpr, evalExpr, calleeMember_subst, subst_args hw h x s as, subst_expr hw h x s c]
    cases calleeMember c with
    | some m => rfl
    | none =>
      simp only
      cases evalExpr w (ρ.set x v) s c with
      | none => rfl
      | some p => simp only; rw [subst_args hw h x p.1 as]

theorem subst_node {w : World σ V} (hw : Still w) {ρ : Env Nat V} {r : Nat} {ks : List Expr} {v : V}
    (h : Leads w ρ r ks v) (x : Nat) (s : σ) (u : V) : ∀ e : Expr,
    evalNode w ρ s u (substExpr x r ks e) = evalNode w (ρ.set x v) s u e
  | .var y => by
    rw [substExpr]
    by_cases hy : y = x
    · rw [if_pos hy, evalNode_path, h s, evalNode, hy]; simp [Env.set]
    · rw [if_neg hy, evalNode, evalNode]; simp [Env.set, hy]
  | .sym t => by rw [substExpr, evalNode, evalNode]
  | .num i => by rw [substExpr, evalNode, evalNode]
  | .str t => by rw [substExpr, evalNode, evalNode]
  | .path y l => by
    have e : evalExpr w ρ s (substExpr x r ks (.path y l)) = evalExpr w (ρ.set x v) s (.path y l) := by
      rw [substExpr]
      by_cases hy : y = x
      · rw [if_pos hy, leads_append hw h, evalExpr_path, hy, subst_from hw h x s v l]; simp [Env.set]
      · rw [if_neg hy, evalExpr_path, evalExpr_path]
        have e : (ρ.set x v) y = ρ y := by simp [Env.set, hy]
        rw [e]
        cases ρ y with
        | none => rfl
        | some u => exact subst_from hw h x s u l
    rw [evalNode_path, ← e, substExpr]
    split <;> rw [evalNode_path]
  | .visit c as => by rw [substExpr, evalNode, evalNode]

theorem subst_from {w : World σ V} (hw : Still w) {ρ : Env Nat V} {r : Nat} {ks : List Expr} {v : V}
    (h : Leads w ρ r ks v) (x : Nat) (s : σ) (u : V) : ∀ l : List Expr,
    evalFrom w ρ s u (substExprs x r ks l) = evalFrom w (ρ.set x v) s u l
  | [] => by rw [substExprs]; rfl
  | k :: l => by
    rw [substExprs]
    simp only [evalFrom]
    rw [subst_node hw h x s u k]
    cases evalNode w (ρ.set x v) s u k with
    | none => rfl
    | some p => exact subst_path hw h x p.1 p.2 l

theorem subst_path {w : World σ V} (hw : Still w) {ρ : Env Nat V} {r : Nat} {ks : List Expr} {v : V}
    (h : Leads w ρ r ks v) (x : Nat) (s : σ) (u : V) : ∀ l : List Expr,
    evalPath w ρ s u (substExprs x r ks l) = evalPath w (ρ.set x v) s u l
  | [] => by rw [substExprs, evalPath, evalPath]
  | k :: l => by
    rw [substExprs, evalPath, evalPath, subst_node hw h x s u k]
    cases evalNode w (ρ.set x v) s u k with
    | none => rfl
    | some p => exact subst_path hw h x p.1 p.2 l

theorem subst_args {w : World σ V} (hw : Still w) {ρ : Env Nat V} {r : Nat} {ks : List Expr} {v : V}
    (h : Leads w ρ r ks v) (x : Nat) (s : σ) : ∀ l : List Expr,
    evalArgs w ρ s (substExprs x r ks l) = evalArgs w (ρ.set x v) s l
  | [] => by rw [substExprs, evalArgs, evalArgs]
  | e :: l => by
    rw [substExprs, evalArgs, evalArgs, subst_expr hw h x s e]
    cases evalExpr w (ρ.set x v) s e with
    | none => rfl
    | some p => simp only; rw [subst_args hw h x p.1 l]
end

/-! Binding a variable that the path does not have. -/

mutual
theorem expr_congr (w : World σ V) {ρ ρ' : Env Nat V} (s : σ) : ∀ e : Expr, (∀ y ∈ vars e, ρ y = ρ' y) →
    evalExpr w ρ s e = evalExpr w ρ' s e
  | .var y, h => by rw [evalExpr, evalExpr, h y (by simp [vars])]
  | .sym t, h => by rw [evalExpr, evalExpr]
  | .num i, h => by rw [evalExpr, evalExpr]
  | .str t, h => by rw [evalExpr, evalExpr]
  | .path y l, h => by
    rw [evalExpr_path, evalExpr_path, h y (by simp [vars])]
    cases ρ' y with
    | none => rfl
    | some u => exact from_congr w s u l fun z hz => h z (by simp [vars, hz])
  | .visit c as, h => by
    have hc := fun z (hz : z ∈ vars c) => h z (by simp [vars, hz])
    have ha := fun z (hz : z ∈ varss as) => h z (by simp [vars, hz])
    rw [evalExpr, evalExpr, args_congr w s as ha, expr_congr w s c hc]
    cases calleeMember c with
    | some m => rfl
    | none =>
      simp only
      cases evalExpr w ρ' s c with
      | none => rfl
      | some p => simp only; rw [args_congr w p.1 as ha]

theorem node_congr (w : World σ V) {ρ ρ' : Env Nat V} (s : σ) (u : V) : ∀ e : Expr, (∀ y ∈ vars e, ρ y = ρ' y) →
    evalNode w ρ s u e = evalNode w ρ' s u e
  | .var y, h => by rw [evalNode, evalNode, h y (by simp [vars])]
  | .sym t, h => by rw [evalNode, evalNode]
  | .num i, h => by rw [evalNode, evalNode]
  | .str t, h => by rw [evalNode, evalNode]
  | .path y l, h => by
    rw [evalNode_path, evalNode_path, evalExpr_path, evalExpr_path, h y (by simp [vars])]
    cases ρ' y with
    | none => rfl
    | some u =>
      simp only [Option.bind_some]
      rw [from_congr w s u l fun z hz => h z (by simp [vars, hz])]
  | .visit c as, h => by rw [evalNode, evalNode]

theorem from_congr (w : World σ V) {ρ ρ' : Env Nat V} (s : σ) (u : V) : ∀ l : List Expr, (∀ y ∈ varss l, ρ y = ρ' y) →
    evalFrom w ρ s u l = evalFrom w ρ' s u l
  | [], h => rfl
  | k :: l, h => by
    simp only [evalFrom]
    rw [node_congr w s u k fun z hz => h z (by simp [varss, hz])]
    cases evalNode w ρ' s u k with
    | none => rfl
    | some p => exact path_congr w p.1 p.2 l fun z hz => h z (by simp [varss, hz])

theorem path_congr (w : World σ V) {ρ ρ' : Env Nat V} (s : σ) (u : V) : ∀ l : List Expr, (∀ y ∈ varss l, ρ y = ρ' y) →
    evalPath w ρ s u l = evalPath w ρ' s u l
  | [], h => by rw [evalPath, evalPath]
  | k :: l, h => by
    rw [evalPath, evalPath, node_congr w s u k fun z hz => h z (by simp [varss, hz])]
    cases evalNode w ρ' s u k with
    | none => rfl
    | some p => exact path_congr w p.1 p.2 l fun z hz => h z (by simp [varss, hz])

theorem args_congr (w : World σ V) {ρ ρ' : Env Nat V} (s : σ) : ∀ l : List Expr, (∀ y ∈ varss l, ρ y = ρ' y) →
    evalArgs w ρ s l = evalArgs w ρ' s l
  | [], h => by rw [evalArgs, evalArgs]
  | e :: l, h => by
    rw [evalArgs, evalArgs, expr_congr w s e fun z hz => h z (by simp [varss, hz])]
    cases evalExpr w ρ' s e with
    | none => rfl
    | some p => simp only; rw [args_congr w p.1 l fun z hz => h z (by simp [varss, hz])]
end

theorem leads_set {w : World σ V} {ρ : Env Nat V} {r : Nat} {ks : List Expr} {v : V} (h : Leads w ρ r ks v) {y : Nat}
    (hy : y ∉ r :: varss ks) (u : V) : Leads w (ρ.set y u) r ks v := by
  intro s
  rw [← h s]
  apply expr_congr
  intro z hz
  have : z ≠ y := fun e => hy (by rw [← e]; simpa [vars] using hz)
  simp [Env.set, this]

theorem set_comm (ρ : Env Nat V) {x y : Nat} (h : y ≠ x) (u v : V) : (ρ.set x v).set y u = (ρ.set y u).set x v := by
  funext z
  simp only [Env.set]
  split <;> split <;> simp_all

mutual
theorem subst_stmt {w : World σ V} (hw : Still w) (fn : V) {ρ : Env Nat V} {r : Nat} {ks : List Expr} {v : V}
    (h : Leads w ρ r ks v) (x : Nat) (s : σ) : ∀ st : Stmt, clean (x :: r :: varss ks) x st = true →
    runStmt w fn ρ s (substStmt x r ks st) = runStmt w fn (ρ.set x v) s st
  | .call args, _ => by rw [substStmt, runStmt, runStmt, subst_args hw h x s args]
  | .visit c as, _ => by
    have := subst_expr hw h x s (.visit c as)
    rw [substExpr] at this
    rw [substStmt, runStmt, runStmt, this]
  | .matchPath p cs, hc => by
    rw [clean] at hc
    rw [substStmt, runStmt, runStmt, subst_expr hw h x s p]
    cases evalExpr w (ρ.set x v) s p with
    | none => rfl
    | some q => exact subst_clauses hw fn h x _ _ cs hc
  | .matchIf c thn els, hc => by
    rw [clean, Bool.and_eq_true] at hc
    rw [substStmt, runStmt, runStmt, subst_expr hw h x s c]
    cases evalExpr w (ρ.set x v) s c with
    | none => rfl
    | some q => simp only; rw [subst_stmts hw fn h x _ thn hc.1, subst_stmts hw fn h x _ els hc.2]
  | .noop y, hc => by
    have hy : y ≠ x := by simpa [clean] using hc
    rw [substStmt, if_neg hy, runStmt, runStmt]
    simp [Env.set, hy]

theorem subst_stmts {w : World σ V} (hw : Still w) (fn : V) {ρ : Env Nat V} {r : Nat} {ks : List Expr} {v : V}
    (h : Leads w ρ r ks v) (x : Nat) (s : σ) : ∀ ss : List Stmt, cleans (x :: r :: varss ks) x ss = true →
    runStmts w fn ρ s (substStmts x r ks ss) = runStmts w fn (ρ.set x v) s ss
  | [], _ => by rw [substStmts, runStmts, runStmts]
  | st :: ss, hc => by
    rw [cleans, Bool.and_eq_true] at hc
    rw [substStmts, runStmts, runStmts, subst_stmt hw fn h x s st hc.1]
    cases runStmt w fn (ρ.set x v) s st with
    | none => rfl
    | some s' => exact subst_stmts hw fn h x s' ss hc.2

theorem subst_clauses {w : World σ V} (hw : Still w) (fn : V) {ρ : Env Nat V} {r : Nat} {ks : List Expr} {v : V}
    (h : Leads w ρ r ks v) (x : Nat) (s : σ) (u : V) : ∀ cs : List Dsl.Clause,
    cleanClauses (x :: r :: varss ks) x cs = true →
    runClauses w fn ρ s u (substClauses x r ks cs) = runClauses w fn (ρ.set x v) s u cs
  | [], _ => by rw [substClauses, runClauses, runClauses]
  | .mk type y body :: cs, hc => by
    rw [cleanClauses, Bool.and_eq_true, Bool.and_eq_true] at hc
    obtain ⟨⟨hy, hb⟩, hcs⟩ := hc
    have hy' : y ∉ x :: r :: varss ks := by simpa using hy
    have hyx : y ≠ x := fun e => hy' (by simp [e])
    rw [substClauses, runClauses, runClauses, if_neg hyx, subst_clauses hw fn h x s u cs hcs,
      subst_stmts hw fn (leads_set h (fun hm => hy' (List.mem_cons_of_mem _ hm)) u) x s body hb, set_comm ρ hyx]
end

/-! ## C135 -/

theorem expand_then {w : World σ V} (hw : Still w) (fn : V) (ρ : Env Nat V) (els : List Stmt) (last : List Clause)
    (hlast : ∃ body, expand last els = some body ∧ ∀ s, runStmts w fn ρ s body = runCond w fn ρ els s last) :
    ∀ (cs : List Clause) (s : σ), (∀ c ∈ cs, plain c = true) → (∀ c ∈ cs, Clean c) →
    ∃ body, expand (cs ++ last) els = some body ∧ runStmts w fn ρ s body = runCond w fn ρ els s (cs ++ last)
  | [], s, _, _ => by
    obtain ⟨body, h1, h2⟩ := hlast
    exact ⟨body, h1, h2 s⟩
  | c :: cs, s, hp, hc => by
    rw [List.cons_append]
    have ih := fun s => expand_then hw fn ρ els last hlast cs s (fun c h => hp c (by simp [h])) (fun c h => hc c (by simp [h]))
    have one : ∀ (st : Stmt) (s : σ), runStmts w fn ρ s [st] = runStmt w fn ρ s st := by
      intro st s
      rw [runStmts]
      cases runStmt w fn ρ s st with
      | none => rfl
      | some s' => simp [runStmts]
    cases c with
    | results test first more =>
      obtain ⟨body, hb, _⟩ := ih s
      refine ⟨_, by rw [expand, hb]; rfl, ?_⟩
      rw [one, runStmt, runCond]
      cases evalExpr w ρ s test with
      | none => rfl
      | some p =>
        obtain ⟨body', hb', he⟩ := ih p.1
        rw [hb] at hb'
        cases hb'
        simp only [he]
    | arrow root keys x bd =>
      obtain ⟨body, hb, _⟩ := ih s
      refine ⟨_, by rw [expand, hb]; rfl, ?_⟩
      rw [one, runStmt, runCond]
      cases hv : evalExpr w ρ s (.path root keys) with
      | none => rfl
      | some p =>
        obtain ⟨body', hb', he⟩ := ih p.1
        rw [hb] at hb'
        cases hb'
        have hl := leads_of hw (s' := p.1) (v := p.2) hv
        simp only [he]
        rw [subst_stmts hw fn hl.2 x p.1 bd (hc (.arrow root keys x bd) List.mem_cons_self)]
    | arrowVisit _ _ _ _ => exact absurd (hp _ List.mem_cons_self) (by simp [plain])
    | only _ => exact absurd (hp _ List.mem_cons_self) (by simp [plain])

/-- C135: what a conditional expands to takes the first clause whose test holds, and gives its procedure what was
tested. -/
theorem expand_means {w : World σ V} (hw : Still w) (fn : V) (ρ : Env Nat V) (els : List Stmt) (cs : List Clause) (s : σ)
    (hp : ∀ c ∈ cs, plain c = true) (hc : ∀ c ∈ cs, Clean c) :
    ∃ body, expand cs els = some body ∧ runStmts w fn ρ s body = runCond w fn ρ els s cs := by
  have h := expand_then hw fn ρ els [] ⟨els, rfl, fun _ => rfl⟩ cs s hp hc
  rwa [List.append_nil] at h

/-- C135: so it does with a call alone as the last clause, without `else`: the call is made if no test before it holds. -/
theorem last_call_means {w : World σ V} (hw : Still w) (fn : V) (ρ : Env Nat V) (callee : Expr) (args : List Expr)
    (cs : List Clause) (s : σ) (hp : ∀ c ∈ cs, plain c = true) (hc : ∀ c ∈ cs, Clean c) :
    ∃ body, expand (cs ++ [.only (.visit callee args)]) [] = some body ∧
      runStmts w fn ρ s body = runCond w fn ρ [] s (cs ++ [.only (.visit callee args)]) := by
  refine expand_then hw fn ρ [] _ ⟨[.visit callee args], rfl, fun s => ?_⟩ cs s hp hc
  rw [runStmts, runStmt, runCond]
  cases evalExpr w ρ s (.visit callee args) with
  | none => rfl
  | some p => simp [runStmts, runCond]

/-- C135: and so does the C++ function generated for it. -/
theorem generated_cond_partial (name : Text) (stores : Nat) (cs : List Clause) (els body : List Stmt)
    (he : expand cs els = some body) (ha : (⟨name, stores, body⟩ : Fn).accepted = true)
    (hp : ∀ c ∈ cs, plain c = true) (hc : ∀ c ∈ cs, Clean c) :
    ∃ cf : CFunc, compile ⟨name, stores, body⟩ = some cf.text ∧
      ∀ {σ V : Type} (w : World σ V) (s s' : σ) (args : List V) (fn : V), Still w → (⟨name, stores, body⟩ : Fn).ok w →
        args.length = stores + 1 → args[stores]? = some fn →
        runCond w fn (fun x => if x < stores then args[x]? else none) els s cs = some s' →
        cf.run w s args = some s' := by
  obtain ⟨cf, h1, -, -, -, -, h2⟩ := generated_function_does_what_source_says_partial ⟨name, stores, body⟩ ha
  refine ⟨cf, h1, ?_⟩
  intro σ V w s s' args fn hw hok hl hfn hr
  apply h2 w s s' args hok
  obtain ⟨body', hb, hm⟩ := expand_means hw fn (fun x => if x < stores then args[x]? else none) els cs s hp hc
  rw [he] at hb
  cases hb
  simp only [Fn.run, hl, hfn, if_pos]
  rw [hm, hr]

/-- C135: the same for a call alone as the last clause. -/
theorem generated_last_call_partial (name : Text) (stores : Nat) (cs : List Clause) (callee : Expr) (cargs : List Expr)
    (body : List Stmt) (he : expand (cs ++ [.only (.visit callee cargs)]) [] = some body)
    (ha : (⟨name, stores, body⟩ : Fn).accepted = true) (hp : ∀ c ∈ cs, plain c = true) (hc : ∀ c ∈ cs, Clean c) :
    ∃ cf : CFunc, compile ⟨name, stores, body⟩ = some cf.text ∧
      ∀ {σ V : Type} (w : World σ V) (s s' : σ) (args : List V) (fn : V), Still w → (⟨name, stores, body⟩ : Fn).ok w →
        args.length = stores + 1 → args[stores]? = some fn →
        runCond w fn (fun x => if x < stores then args[x]? else none) [] s (cs ++ [.only (.visit callee cargs)]) = some s' →
        cf.run w s args = some s' := by
  obtain ⟨cf, h1, -, -, -, -, h2⟩ := generated_function_does_what_source_says_partial ⟨name, stores, body⟩ ha
  refine ⟨cf, h1, ?_⟩
  intro σ V w s s' args fn hw hok hl hfn hr
  apply h2 w s s' args hok
  obtain ⟨body', hb, hm⟩ := last_call_means hw fn (fun x => if x < stores then args[x]? else none) callee cargs cs s hp hc
  rw [he] at hb
  cases hb
  simp only [Fn.run, hl, hfn, if_pos]
  rw [hm, hr]

/-! ## What is refused -/

/-- C135 fails: a call as the test of a clause with `=>` is an error, wherever the clause is. -/
theorem arrow_visit_violated (pre post : List Clause) (els : List Stmt) (callee : Expr) (args : List Expr) (x : Nat)
    (bd : List Stmt) : expand (pre ++ .arrowVisit callee args x bd :: post) els = none := by
  induction pre with
  | nil => rfl
  | cons c pre ih =>
    cases c with
    | only test =>
      rw [List.cons_append, expand]
      rw [if_neg (by simp), ih]
      split <;> rfl
    | arrowVisit _ _ _ _ => rfl
    | _ => rw [List.cons_append, expand, ih]; rfl

theorem block_single (B : Nat → Bool) (c : Expr) (thn els : List Stmt) (h : blockAccepted B thn = false ∨ blockAccepted B els = false) :
    ∀ first, (Stmt.matchIf c thn els).accepted B first = false := by
  intro first
  rcases h with h | h <;> simp [Stmt.accepted, h]

theorem only_refused (B : Nat → Bool) (test : Expr) (post : List Clause) (els : List Stmt) (hne : post ≠ [] ∨ els ≠ []) :
    ∀ (pre : List Clause) (body : List Stmt), expand (pre ++ .only test :: post) els = some body →
    ∃ c thn e, body = [.matchIf c thn e] ∧ ∀ first, (Stmt.matchIf c thn e).accepted B first = false
  | [], body, h => by
    rw [List.nil_append, expand] at h
    rw [if_neg (by rcases hne with hn | hn <;> simp [hn])] at h
    split at h
    · cases h
    · cases hx : expand post els with
      | none => rw [hx] at h; cases h
      | some r =>
        rw [hx] at h
        cases h
        exact ⟨_, _, _, rfl, block_single B _ _ _ (.inl rfl)⟩
  | c :: pre, body, h => by
    have step : ∀ c' thn (f : List Stmt → List Stmt), (∀ r, f r = [.matchIf c' thn r]) →
        (expand (pre ++ .only test :: post) els).map f = some body →
        ∃ c thn e, body = [.matchIf c thn e] ∧ ∀ first, (Stmt.matchIf c thn e).accepted B first = false := by
      intro c' thn f hf h
      cases hx : expand (pre ++ .only test :: post) els with
      | none => rw [hx] at h; cases h
      | some r =>
        rw [hx] at h
        obtain ⟨c2, t2, e2, hr, ha⟩ := only_refused B test post els hne pre r hx
        simp only [Option.map_some, Option.some.injEq] at h
        refine ⟨c', thn, r, by rw [← h, hf], block_single B _ _ _ (.inr ?_)⟩
        rw [hr]
        simp [blockAccepted, ha]
    cases c with
    | results t f m => rw [List.cons_append, expand] at h; exact step _ _ _ (fun r => rfl) h
    | arrow root keys x bd => rw [List.cons_append, expand] at h; exact step _ _ _ (fun r => rfl) h
    | arrowVisit _ _ _ _ => cases h
    | only t =>
      rw [List.cons_append, expand] at h
      rw [if_neg (by simp)] at h
      split at h
      · cases h
      · exact step _ _ _ (fun r => rfl) h

/-- C135 fails: a clause with a test and nothing else is never compiled, unless it comes last. -/
theorem only_violated (name : Text) (stores : Nat) (pre post : List Clause) (els body before after : List Stmt)
    (test : Expr) (hne : post ≠ [] ∨ els ≠ []) (h : expand (pre ++ .only test :: post) els = some body) :
    compile ⟨name, stores, before ++ body ++ after⟩ = none := by
  obtain ⟨c, thn, e, hb, ha⟩ := only_refused (fun x => decide (x < stores)) test post els hne pre body h
  subst hb
  have h := compile_isSome ⟨name, stores, before ++ .matchIf c thn e :: after⟩
  simp only [Fn.accepted] at h
  rw [block_refused _ _ ha] at h
  simpa using h

/-- C135 fails: `noop` cannot be the procedure for a path. -/
theorem arrow_noop_violated (name : Text) (stores : Nat) (root x : Nat) (key : Expr) (keys : List Expr) (cs : List Clause)
    (els body before after : List Stmt) (h : expand (.arrow root (key :: keys) x [.noop x] :: cs) els = some body) :
    compile ⟨name, stores, before ++ body ++ after⟩ = none := by
  rw [expand] at h
  cases hx : expand cs els with
  | none => rw [hx] at h; cases h
  | some r =>
    rw [hx] at h
    cases h
    have h := compile_isSome ⟨name, stores, before ++ .matchIf (.path root (key :: keys))
      (substStmts x root (key :: keys) [.noop x]) r :: after⟩
    simp only [Fn.accepted] at h
    rw [block_refused _ _ (block_single _ _ _ _ (.inl (by simp [substStmts, substStmt, blockAccepted, Stmt.accepted])))] at h
    simpa using h

/-! A store that shows something else after every call. -/

def moving : World (List Nat) Nat where
  lit := fun
    | .int i => i.toNat
    | .str _ => 0
  cexpr := fun _ => 0
  asConst := id
  matchStore := fun s _ _ => (s, s.length + 100)
  get := fun s _ _ => s.length + 100
  member := fun _ _ _ => 0
  compose := fun s _ _ _ => (s, 0)
  call := fun s _ as => (s ++ as, 0)
  memberCall := fun s _ _ as => (s ++ as, 0)
  truth := fun _ _ => true
  is := fun _ _ => true

/-- C135 fails: a procedure is given the path, not the value: after a call that changes the store it sees another value
than the one that was tested. -/
theorem arrow_late_violated :
    ∃ (cs : List Clause) (els body : List Stmt), (∀ c ∈ cs, plain c = true) ∧ expand cs els = some body
      ∧ (⟨"f".toList, 1, body⟩ : Fn).accepted = true
      ∧ runCond moving 7 (fun x => if x < 1 then some 5 else none) els [] cs = some [1, 100]
      ∧ runStmts moving 7 (fun x => if x < 1 then some 5 else none) [] body = some [1, 101] :=
  ⟨[.arrow 0 [.num 3] 9 [.call [.num 1], .call [.var 9]]], [.call [.num 2]],
    [.matchIf (.path 0 [.num 3]) [.call [.num 1], .call [.path 0 [.num 3]]] [.call [.num 2]]],
    by decide, rfl, by decide +kernel, by decide +kernel, by decide +kernel⟩

/-! A store that stays as it is: objects are lists of keys, even ones hold. -/

def resting : World (List (List Nat)) (List Nat) where
  lit := fun
    | .int i => [i.toNat]
    | .str t => [t.length]
  cexpr := fun t => [t.length]
  asConst := id
  matchStore := fun s v k => (s, match k with | none => v | some k => v ++ k)
  get := fun _ v k => match k with | none => v | some k => v ++ k
  member := fun _ v m => v ++ [m.length]
  compose := fun s _ v _ => (s, v)
  call := fun s _ as => (s ++ as, [s.length])
  memberCall := fun s _ _ as => (s ++ as, [s.length])
  truth := fun _ v => v.sum % 2 == 0
  is := fun _ _ => true

theorem resting_still : Still resting :=
  ⟨fun _ _ _ => rfl, fun _ _ _ _ => rfl, fun _ _ _ _ => rfl, fun _ _ _ => rfl⟩

/-- The first test does not hold; the second does, and its procedure looks further from what was tested. -/
def sampleCond : List Clause :=
  [.results (.path 0 [.num 1]) (.call [.num 77]) [],
   .arrow 0 [.num 2, .sym ".ab".toList] 9 [.call [.num 1, .var 9], .call [.path 9 [.num 6], .var 0]],
   .arrow 0 [.num 4] 9 [.call [.num 78]]]

example : (∀ c ∈ sampleCond, plain c = true) ∧ (∀ c ∈ sampleCond, Clean c) := by
  constructor
  · decide
  · intro c hc
    simp [sampleCond] at hc
    rcases hc with rfl | rfl | rfl
    · trivial
    · show cleans _ _ _ = true; decide
    · show cleans _ _ _ = true; decide

example : runCond resting [] (fun x => if x < 1 then some [10] else none) [.call [.num 79]] [] sampleCond
    = some [[1], [10, 2, 2], [10, 2, 2, 6], [10]] := by decide +kernel

example : ∃ body, expand sampleCond [.call [.num 79]] = some body ∧ (⟨"f".toList, 1, body⟩ : Fn).accepted = true
    ∧ runStmts resting [] (fun x => if x < 1 then some [10] else none) [] body
      = some [[1], [10, 2, 2], [10, 2, 2, 6], [10]] := by
  refine ⟨_, rfl, ?_, ?_⟩ <;> decide +kernel

example : ∃ body, expand sampleCond [.call [.num 79]] = some body ∧ (⟨"f".toList, 1, body⟩ : Fn).ok resting := by
  refine ⟨_, rfl, ?_⟩
  simp [Fn.ok, stmtsOk, Stmt.ok, Expr.strOk, exprsStrOk, substStmts, substStmt, substExprs, substExpr, sampleCond]

/-- A call alone at the end: the test before it does not hold. -/
def sampleLast : List Clause := [.results (.path 0 [.num 1]) (.call [.num 77]) []]

example : (∀ c ∈ sampleLast, plain c = true) ∧ (∀ c ∈ sampleLast, Clean c) ∧
    ∃ body, expand (sampleLast ++ [.only (.visit (.sym "g".toList) [.num 5])]) [] = some body
      ∧ (⟨"f".toList, 1, body⟩ : Fn).accepted = true ∧ (⟨"f".toList, 1, body⟩ : Fn).ok resting
      ∧ body = [.matchIf (.path 0 [.num 1]) [.call [.num 77]] [.visit (.sym "g".toList) [.num 5]]] := by
  refine ⟨by decide, ?_, _, rfl, by decide +kernel, ?_, rfl⟩
  · intro c hc
    simp [sampleLast] at hc
    subst hc
    trivial
  · simp [Fn.ok, stmtsOk, Stmt.ok, Expr.strOk, exprsStrOk, alone]

end Nbdl.Cond
