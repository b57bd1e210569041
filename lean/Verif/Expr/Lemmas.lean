import Verif.Expr.Spec

namespace Verif.Expr
open Matrix Verif.Geo Filter Topology

theorem bind_eq_ok {α β : Type} {x : Res α} {f : α → Res β} {b : β} : (x >>= f) = .ok b ↔ ∃ a, x = .ok a ∧ f a = .ok b := by
  cases x <;> simp

section Store
variable {env : Env} {tbl : Table} {σ : Store}

theorem put_fresh_self {ty : Ty} {e : Node ty} {id : Nat} {x : Cell} (ht : tbl id = ⟨ty, e⟩) (h : cell env e = .ok x) :
    FreshId env tbl (put id (cell env e) σ) id := by
  refine ⟨x, by rw [ht]; exact h, ?_⟩
  rw [h]
  simp [put]

theorem put_mono {ty : Ty} {e : Node ty} {id i : Nat} (ht : tbl id = ⟨ty, e⟩) (h : FreshId env tbl σ i) :
    FreshId env tbl (put id (cell env e) σ) i := by
  rcases hx : cell env e with x | _ | _
  · by_cases hi : i = id
    · subst hi
      rw [← hx]
      exact put_fresh_self ht hx
    · obtain ⟨y, h1, h2⟩ := h
      exact ⟨y, h1, by simp [put, hi, h2]⟩
  · exact h
  · exact h

/-- Evaluating any expression keeps members which are up to date so. -/
theorem upd_mono (env : Env) (tbl : Table) : {ty : Ty} → (e : Node ty) → (σ : Store) → (i : Nat) → Cons tbl e →
    FreshId env tbl σ i → FreshId env tbl (upd env e σ) i
  | _, .sconst _, _, _, _, h => h
  | _, .svar _, _, _, _, h => h
  | _, .sun _ a, σ, i, hc, h => upd_mono env tbl a σ i hc h
  | _, .smul a b, σ, i, hc, h => upd_mono env tbl b _ i hc.2 (upd_mono env tbl a σ i hc.1 h)
  | _, .sdiv a b, σ, i, hc, h => upd_mono env tbl b _ i hc.2 (upd_mono env tbl a σ i hc.1 h)
  | _, .sadd a b _, σ, i, hc, h => upd_mono env tbl b _ i hc.2 (upd_mono env tbl a σ i hc.1 h)
  | _, .satan2 a b, σ, i, hc, h => upd_mono env tbl b _ i hc.2 (upd_mono env tbl a σ i hc.1 h)
  | _, .spiece cond a b, σ, i, hc, h => by
    simp only [upd]
    split
    · exact upd_mono env tbl a σ i hc.1 h
    · exact upd_mono env tbl b σ i hc.2 h
  | _, .scomp _ p, σ, i, hc, h => upd_mono env tbl p σ i hc h
  | _, .econst _, _, _, _, h => h
  | _, .evar _, _, _, _, h => h
  | _, .estack a b e, σ, i, hc, h => upd_mono env tbl e _ i hc.2.2 (upd_mono env tbl b _ i hc.2.1 (upd_mono env tbl a σ i hc.1 h))
  | _, .eadd a b, σ, i, hc, h => upd_mono env tbl b _ i hc.2 (upd_mono env tbl a σ i hc.1 h)
  | _, .esub a b, σ, i, hc, h => upd_mono env tbl b _ i hc.2 (upd_mono env tbl a σ i hc.1 h)
  | _, .esubc a _, σ, i, hc, h => upd_mono env tbl a σ i hc h
  | _, .eneg a, σ, i, hc, h => upd_mono env tbl a σ i hc h
  | _, .escale p s, σ, i, hc, h => upd_mono env tbl s _ i hc.2 (upd_mono env tbl p σ i hc.1 h)
  | _, .ecross a b, σ, i, hc, h => upd_mono env tbl b _ i hc.2 (upd_mono env tbl a σ i hc.1 h)
  | _, .eelem a b, σ, i, hc, h => upd_mono env tbl b _ i hc.2 (upd_mono env tbl a σ i hc.1 h)
  | _, .erot _ r p, σ, i, hc, h => put_mono hc.1 (upd_mono env tbl p _ i hc.2.2 (upd_mono env tbl r σ i hc.2.1 h))
  | _, .emat _ m p, σ, i, hc, h => put_mono hc.1 (upd_mono env tbl p _ i hc.2.2 (upd_mono env tbl m σ i hc.2.1 h))
  | _, .etrans T, σ, i, hc, h => upd_mono env tbl T σ i hc h
  | _, .ehom e, σ, i, hc, h => upd_mono env tbl e σ i hc h
  | _, .rconst _, _, _, _, h => h
  | _, .rvar _, _, _, _, h => h
  | _, .rmul _ a b, σ, i, hc, h => put_mono hc.1 (upd_mono env tbl b _ i hc.2.2 (upd_mono env tbl a σ i hc.2.1 h))
  | _, .rinv _ a, σ, i, hc, h => put_mono hc.1 (upd_mono env tbl a σ i hc.2 h)
  | _, .raxis _ s, σ, i, hc, h => upd_mono env tbl s σ i hc h
  | _, .rtrans T, σ, i, hc, h => upd_mono env tbl T σ i hc h
  | _, .tconst _, _, _, _, h => h
  | _, .tbasic r p, σ, i, hc, h => upd_mono env tbl p _ i hc.2 (upd_mono env tbl r σ i hc.1 h)
  | _, .tbasicR r, σ, i, hc, h => upd_mono env tbl r σ i hc h
  | _, .tbasicE p, σ, i, hc, h => upd_mono env tbl p σ i hc h
  | _, .tmul _ a b, σ, i, hc, h => put_mono hc.1 (upd_mono env tbl b _ i hc.2.2 (upd_mono env tbl a σ i hc.2.1 h))
  | _, .tinv _ a, σ, i, hc, h => put_mono hc.1 (upd_mono env tbl a σ i hc.2 h)
  | _, .hconst _, _, _, _, h => h
  | _, .hvar _, _, _, _, h => h
  | _, .hmul _ T e, σ, i, hc, h => put_mono hc.1 (upd_mono env tbl e _ i hc.2.2 (upd_mono env tbl T σ i hc.2.1 h))
  | _, .heuc p, σ, i, hc, h => upd_mono env tbl p σ i hc h
  | _, .mvar _ _, _, _, _, h => h

/-- Two operands evaluated one after the other. -/
theorem two_fresh {ta tb : Ty} {a : Node ta} {b : Node tb} {σ : Store} (hcb : Cons tbl b)
    (ha : ∀ σ, ∀ i ∈ ids env a, FreshId env tbl (upd env a σ) i) (hb : ∀ σ, ∀ i ∈ ids env b, FreshId env tbl (upd env b σ) i) :
    ∀ i, i ∈ ids env a ∨ i ∈ ids env b → FreshId env tbl (upd env b (upd env a σ)) i := by
  rintro i (h | h)
  · exact upd_mono env tbl b _ i hcb (ha σ i h)
  · exact hb _ i h

/-- Evaluating an expression brings the members of all its nodes up to date. -/
theorem upd_fresh (env : Env) (tbl : Table) {ty : Ty} (e : Node ty) (σ : Store) (v : Val ty) (hc : Cons tbl e) (hv : val env e = .ok v) :
    Fresh env tbl (upd env e σ) e := by
  unfold Fresh
  induction e generalizing σ with
  | sconst | svar | econst | evar | rconst | rvar | tconst | hconst | hvar | mvar => simp [ids]
  | sun f a ih | scomp _ a ih | esubc a _ ih | eneg a ih | etrans a ih | ehom a ih | raxis _ a ih | rtrans a ih | tbasicR a ih | tbasicE a ih | heuc a ih =>
    simp only [val, bind_eq_ok] at hv
    obtain ⟨x, hx, -⟩ := hv
    exact ih σ x hc hx
  | smul a b iha ihb | sdiv a b iha ihb | sadd a b _ iha ihb | satan2 a b iha ihb | eadd a b iha ihb | esub a b iha ihb | escale a b iha ihb
  | ecross a b iha ihb | eelem a b iha ihb | tbasic a b iha ihb =>
    simp only [val, bind_eq_ok] at hv
    obtain ⟨x, hx, y, hy, -⟩ := hv
    simp only [ids, List.mem_append]
    exact two_fresh hc.2 (fun σ => iha σ x hc.1 hx) (fun σ => ihb σ y hc.2 hy)
  | spiece cond a b iha ihb =>
    simp only [val] at hv
    simp only [ids, upd]
    split at hv
    · next h => simp only [h, if_true]; exact iha σ v hc.1 hv
    · next h => simp only [h]; exact ihb σ v hc.2 hv
  | estack a b e iha ihb ihe =>
    simp only [val, bind_eq_ok] at hv
    obtain ⟨x, hx, y, hy, z, hz, -⟩ := hv
    simp only [ids, List.mem_append, upd]
    rintro i (h | h | h)
    · exact upd_mono env tbl e _ i hc.2.2 (upd_mono env tbl b _ i hc.2.1 (iha σ x hc.1 hx i h))
    · exact upd_mono env tbl e _ i hc.2.2 (ihb _ y hc.2.1 hy i h)
    · exact ihe _ z hc.2.2 hz i h
  | erot id a b iha ihb | emat id a b iha ihb | hmul id a b iha ihb =>
    simp only [val, bind_eq_ok] at hv
    obtain ⟨x, hx, y, hy, -⟩ := hv
    intro i h
    have h : i ∈ id :: (ids env a ++ ids env b) := h
    rw [List.mem_cons, List.mem_append] at h
    change FreshId env tbl (put id (cell env _) (upd env b (upd env a σ))) i
    rcases h with h | h
    · subst h
      exact put_fresh_self hc.1 (by simp [cell, hx, hy]; rfl)
    · exact put_mono hc.1 (two_fresh hc.2.2 (fun σ => iha σ x hc.2.1 hx) (fun σ => ihb σ y hc.2.2 hy) i h)
  | rmul id a b iha ihb | tmul id a b iha ihb =>
    simp only [val, bind_eq_ok] at hv
    obtain ⟨x, hx, y, hy, -⟩ := hv
    simp only [ids, List.mem_cons, List.mem_append, upd]
    rintro i (h | h)
    · subst h
      exact put_fresh_self hc.1 (by simp [cell, hx, hy]; rfl)
    · exact put_mono hc.1 (two_fresh hc.2.2 (fun σ => iha σ x hc.2.1 hx) (fun σ => ihb σ y hc.2.2 hy) i h.symm)
  | rinv id a ih =>
    simp only [val, bind_eq_ok] at hv
    obtain ⟨x, hx, -⟩ := hv
    simp only [ids, List.mem_cons, upd]
    rintro i (h | h)
    · subst h
      exact put_fresh_self hc.1 (by simp [cell, hx]; rfl)
    · exact put_mono hc.1 (ih σ x hc.2 hx i h)
  | tinv id a ih =>
    simp only [val, bind_eq_ok] at hv
    obtain ⟨x, hx, h2⟩ := hv
    simp only [ids, List.mem_cons, upd]
    rintro i (h | h)
    · subst h
      exact put_fresh_self hc.1 (by simp [cell, hx, h2]; rfl)
    · exact put_mono hc.1 (ih σ x hc.2 hx i h)

end Store
end Verif.Expr
