import Verif.Expr.Lemmas

/-! The value of an expression depends on the reported variables and the conditions only. -/
namespace Verif.Expr
open Matrix Verif.Geo

/-- The design variable has the same value in both environments. -/
def SameAt (env env' : Env) : Var → Prop
  | .sc i => env.sc i = env'.sc i
  | .pt i => env.pt i = env'.pt i
  | .ro i => env.ro i = env'.ro i
  | .ho i => env.ho i = env'.ho i
  | .mat i free => env.mat i free = env'.mat i free

/-- All variables in `l` have the same values in both environments, and matrices without free entries, which never change, too. -/
def AgreeOn (env env' : Env) (l : List Var) : Prop := (∀ v ∈ l, SameAt env env' v) ∧ ∀ i, env.mat i [] = env'.mat i []

theorem AgreeOn.left {env env' : Env} {l k : List Var} (h : AgreeOn env env' (l ++ k)) : AgreeOn env env' l :=
  ⟨fun v hv => h.1 v (List.mem_append_left _ hv), h.2⟩
theorem AgreeOn.right {env env' : Env} {l k : List Var} (h : AgreeOn env env' (l ++ k)) : AgreeOn env env' k :=
  ⟨fun v hv => h.1 v (List.mem_append_right _ hv), h.2⟩

/-- The conditions of piecewise expressions choose the same branches in both environments. -/
def SameBranches (env env' : Env) : {ty : Ty} → Node ty → Prop
  | _, .sun _ a => SameBranches env env' a
  | _, .scomp _ a => SameBranches env env' a
  | _, .esubc a _ => SameBranches env env' a
  | _, .eneg a => SameBranches env env' a
  | _, .etrans a => SameBranches env env' a
  | _, .ehom a => SameBranches env env' a
  | _, .rinv _ a => SameBranches env env' a
  | _, .raxis _ a => SameBranches env env' a
  | _, .rtrans a => SameBranches env env' a
  | _, .tbasicR a => SameBranches env env' a
  | _, .tbasicE a => SameBranches env env' a
  | _, .tinv _ a => SameBranches env env' a
  | _, .heuc a => SameBranches env env' a
  | _, .smul a b => SameBranches env env' a ∧ SameBranches env env' b
  | _, .sdiv a b => SameBranches env env' a ∧ SameBranches env env' b
  | _, .sadd a b _ => SameBranches env env' a ∧ SameBranches env env' b
  | _, .satan2 a b => SameBranches env env' a ∧ SameBranches env env' b
  | _, .eadd a b => SameBranches env env' a ∧ SameBranches env env' b
  | _, .esub a b => SameBranches env env' a ∧ SameBranches env env' b
  | _, .escale a b => SameBranches env env' a ∧ SameBranches env env' b
  | _, .ecross a b => SameBranches env env' a ∧ SameBranches env env' b
  | _, .eelem a b => SameBranches env env' a ∧ SameBranches env env' b
  | _, .erot _ a b => SameBranches env env' a ∧ SameBranches env env' b
  | _, .emat _ a b => SameBranches env env' a ∧ SameBranches env env' b
  | _, .rmul _ a b => SameBranches env env' a ∧ SameBranches env env' b
  | _, .tbasic a b => SameBranches env env' a ∧ SameBranches env env' b
  | _, .tmul _ a b => SameBranches env env' a ∧ SameBranches env env' b
  | _, .hmul _ a b => SameBranches env env' a ∧ SameBranches env env' b
  | _, .estack a b e => SameBranches env env' a ∧ SameBranches env env' b ∧ SameBranches env env' e
  | _, .spiece cond a b => cond env = cond env' ∧ SameBranches env env' a ∧ SameBranches env env' b
  | _, _ => True

theorem val_agree (env env' : Env) : {ty : Ty} → (e : Node ty) → SameBranches env env' e → AgreeOn env env' (dvs env e) → val env e = val env' e
  | _, .sconst _, _, _ => rfl
  | _, .svar i, _, h => congrArg Res.ok (h.1 (.sc i) (List.mem_singleton.mpr rfl))
  | _, .econst _, _, _ => rfl
  | _, .evar i, _, h => congrArg Res.ok (h.1 (.pt i) (List.mem_singleton.mpr rfl))
  | _, .rconst _, _, _ => rfl
  | _, .rvar i, _, h => congrArg Res.ok (h.1 (.ro i) (List.mem_singleton.mpr rfl))
  | _, .tconst _, _, _ => rfl
  | _, .hconst _, _, _ => rfl
  | _, .hvar i, _, h => congrArg Res.ok (h.1 (.ho i) (List.mem_singleton.mpr rfl))
  | _, .mvar i free, _, h => by
    by_cases hf : free = []
    · subst hf; exact congrArg Res.ok (h.2 i)
    · exact congrArg Res.ok (h.1 (.mat i free) (by simp [dvs, hf]))
  | _, .estack a b e, hb, h => by
    simp only [val, val_agree env env' a hb.1 h.left, val_agree env env' b hb.2.1 h.right.left, val_agree env env' e hb.2.2 h.right.right]
  | _, .spiece cond a b, hb, h => by
    have h1 := hb.1
    cases hct : cond env with
    | true =>
      rw [hct] at h1
      simp only [dvs, hct, if_true] at h
      simp only [val, hct, ← h1, if_true, val_agree env env' a hb.2.1 h]
    | false =>
      rw [hct] at h1
      simp only [dvs, hct, Bool.false_eq_true, if_false] at h
      simp only [val, hct, ← h1, Bool.false_eq_true, if_false, val_agree env env' b hb.2.2 h]
  | _, .sun _ a, hb, h => by simp only [val, val_agree env env' a hb h]
  | _, .scomp _ a, hb, h => by simp only [val, val_agree env env' a hb h]
  | _, .esubc a _, hb, h => by simp only [val, val_agree env env' a hb h]
  | _, .eneg a, hb, h => by simp only [val, val_agree env env' a hb h]
  | _, .etrans a, hb, h => by simp only [val, val_agree env env' a hb h]
  | _, .ehom a, hb, h => by simp only [val, val_agree env env' a hb h]
  | _, .rinv _ a, hb, h => by simp only [val, val_agree env env' a hb h]
  | _, .raxis _ a, hb, h => by simp only [val, val_agree env env' a hb h]
  | _, .rtrans a, hb, h => by simp only [val, val_agree env env' a hb h]
  | _, .tbasicR a, hb, h => by simp only [val, val_agree env env' a hb h]
  | _, .tbasicE a, hb, h => by simp only [val, val_agree env env' a hb h]
  | _, .tinv _ a, hb, h => by simp only [val, val_agree env env' a hb h]
  | _, .heuc a, hb, h => by simp only [val, val_agree env env' a hb h]
  | _, .smul a b, hb, h => by simp only [val, val_agree env env' a hb.1 h.left, val_agree env env' b hb.2 h.right]
  | _, .sdiv a b, hb, h => by simp only [val, val_agree env env' a hb.1 h.left, val_agree env env' b hb.2 h.right]
  | _, .sadd a b _, hb, h => by simp only [val, val_agree env env' a hb.1 h.left, val_agree env env' b hb.2 h.right]
  | _, .satan2 a b, hb, h => by simp only [val, val_agree env env' a hb.1 h.left, val_agree env env' b hb.2 h.right]
  | _, .eadd a b, hb, h => by simp only [val, val_agree env env' a hb.1 h.left, val_agree env env' b hb.2 h.right]
  | _, .esub a b, hb, h => by simp only [val, val_agree env env' a hb.1 h.left, val_agree env env' b hb.2 h.right]
  | _, .escale a b, hb, h => by simp only [val, val_agree env env' a hb.1 h.left, val_agree env env' b hb.2 h.right]
  | _, .ecross a b, hb, h => by simp only [val, val_agree env env' a hb.1 h.left, val_agree env env' b hb.2 h.right]
  | _, .eelem a b, hb, h => by simp only [val, val_agree env env' a hb.1 h.left, val_agree env env' b hb.2 h.right]
  | _, .erot _ a b, hb, h => by simp only [val, val_agree env env' a hb.1 h.left, val_agree env env' b hb.2 h.right]
  | _, .emat id (.mvar i free) b, hb, h => by
    have h1 := val_agree env env' (.mvar i free) hb.1 h.left
    have h2 := val_agree env env' b hb.2 h.right
    rw [val, val, h1, h2]
  | _, .rmul _ a b, hb, h => by simp only [val, val_agree env env' a hb.1 h.left, val_agree env env' b hb.2 h.right]
  | _, .tbasic a b, hb, h => by simp only [val, val_agree env env' a hb.1 h.left, val_agree env env' b hb.2 h.right]
  | _, .tmul _ a b, hb, h => by simp only [val, val_agree env env' a hb.1 h.left, val_agree env env' b hb.2 h.right]
  | _, .hmul _ a b, hb, h => by simp only [val, val_agree env env' a hb.1 h.left, val_agree env env' b hb.2 h.right]

end Verif.Expr
