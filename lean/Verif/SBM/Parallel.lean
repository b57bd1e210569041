import Verif.SBM.Props
import Mathlib.Tactic.IntervalCases

/-!
The two loops of `SparseBlockMatrix` that OpenMP may run in parallel (with `G2O_OPENMP` defined):
`clear` (SBM.hpp:97-112) and `rightMultiply(double*&, const double*)` (SBM.hpp:484-508).

Every iteration of a parallel loop is a thread of its own here and the threads are interleaved in any
way; OpenMP, which gives each thread a chunk of iterations to run one after the other, allows fewer
interleavings. A statement `*p = f(*p)` is two steps: the load and the store.
-/
namespace Verif.SBM
open Verif.MatrixStack (DMat)

section Machine
variable {α V : Type} [DecidableEq α]

/-- A read-modify-write `*p = f(*p)`: the address and the function. The bodies of the loops cited below. -/
abbrev Rmw (α V : Type) := α × (V → V)

/-- A parallel loop in execution: the shared memory, what every iteration still has to do, and the value
it has loaded and not yet stored (SBM.hpp:98-101, 497-500). Simplified: the memory is sequentially
consistent; by `C135_schedule` no two iterations touch the same address, so there is no data race and
this is what the C++ memory model promises. -/
structure Loop (α V : Type) where
  mem : α → V
  todo : Nat → List (Rmw α V)
  reg : Nat → Option V

/-- The start of a loop whose iteration `i` consists of `prog i` (SBM.hpp:98-101, 497-500). -/
def Loop.start (prog : Nat → List (Rmw α V)) (mem : α → V) : Loop α V := ⟨mem, prog, fun _ => none⟩

/-- The scheduler lets iteration `i` make one step: the load or the store of its next statement
(SBM.hpp:102-108, 502-506). An iteration that has finished does nothing. -/
def Loop.step (s : Loop α V) (i : Nat) : Loop α V :=
  match s.todo i with
  | [] => s
  | (a, f) :: rest =>
    match s.reg i with
    | none => { s with reg := Function.update s.reg i (some (s.mem a)) }
    | some v => ⟨Function.update s.mem a (f v), Function.update s.todo i rest,
        Function.update s.reg i none⟩

/-- A schedule: which iteration makes the next step (SBM.hpp:98-101, 497-500). -/
def Loop.run (s : Loop α V) (sched : List Nat) : Loop α V := sched.foldl Loop.step s

/-- The barrier at the end of the parallel loop has been passed: every iteration has finished
(SBM.hpp:112, 508). -/
def Loop.Done (s : Loop α V) : Prop := ∀ i, s.todo i = []

/-- Statements executed one after the other. The loops cited below with one thread. -/
def exec (ops : List (Rmw α V)) (mem : α → V) : α → V :=
  ops.foldl (fun m op => Function.update m op.1 (op.2 (m op.1))) mem

@[simp] theorem exec_nil (mem : α → V) : exec [] mem = mem := rfl

@[simp] theorem exec_cons (op : Rmw α V) (ops : List (Rmw α V)) (mem : α → V) :
    exec (op :: ops) mem = exec ops (Function.update mem op.1 (op.2 (mem op.1))) := rfl

theorem exec_append (x y : List (Rmw α V)) (mem : α → V) : exec (x ++ y) mem = exec y (exec x mem) := by
  simp [exec]

/-- What statements do at an address depends only on what was there. -/
theorem exec_congr (ops : List (Rmw α V)) : ∀ {m m' : α → V} {a : α}, m a = m' a →
    exec ops m a = exec ops m' a := by
  induction ops with
  | nil => intro m m' a h; exact h
  | cons op ops ih =>
    intro m m' a h
    refine ih ?_
    by_cases e : a = op.1
    · subst e; simp [h]
    · simp [e, h]

/-- Statements do nothing at an address they do not name. -/
theorem exec_ne (ops : List (Rmw α V)) : ∀ {m : α → V} {a : α}, (∀ op ∈ ops, op.1 ≠ a) →
    exec ops m a = m a := by
  induction ops with
  | nil => intro m a h; rfl
  | cons op ops ih =>
    intro m a h
    rw [exec_cons, ih fun o ho => h o (List.mem_cons_of_mem _ ho),
      Function.update_of_ne (h op List.mem_cons_self).symm]

/-- Every address is named by one iteration only. -/
def Owned (own : α → Nat) (prog : Nat → List (Rmw α V)) : Prop := ∀ i, ∀ op ∈ prog i, own op.1 = i

/-- What holds in every state of the loop. -/
structure Inv (own : α → Nat) (prog : Nat → List (Rmw α V)) (m₀ : α → V) (s : Loop α V) : Prop where
  owned : Owned own s.todo
  value : ∀ a, exec (s.todo (own a)) s.mem a = exec (prog (own a)) m₀ a
  reg : ∀ i v, s.reg i = some v → ∀ op rest, s.todo i = op :: rest → v = s.mem op.1

theorem Inv.step {own : α → Nat} {prog : Nat → List (Rmw α V)} {m₀ : α → V} {s : Loop α V}
    (h : Inv own prog m₀ s) (i : Nat) : Inv own prog m₀ (s.step i) := by
  unfold Loop.step
  cases ht : s.todo i with
  | nil => exact h
  | cons op rest =>
    obtain ⟨a, f⟩ := op
    have hown : own a = i := h.owned i (a, f) (by rw [ht]; exact List.mem_cons_self)
    cases hr : s.reg i with
    | none =>
      refine ⟨h.owned, h.value, fun j v hj op' rest' hj' => ?_⟩
      by_cases e : j = i
      · subst e
        simp only [Function.update_self, Option.some.injEq] at hj
        have hj'' : s.todo j = op' :: rest' := hj'
        rw [ht] at hj''
        obtain ⟨rfl, -⟩ := List.cons.inj hj''
        exact hj.symm
      · simp only [Function.update_of_ne e] at hj
        exact h.reg j v hj op' rest' hj'
    | some v =>
      have hv : v = s.mem a := h.reg i v hr _ _ ht
      subst hv
      refine ⟨?_, ?_, ?_⟩
      · intro j op' hop
        by_cases e : j = i
        · subst e
          simp only [Function.update_self] at hop
          exact h.owned j op' (by rw [ht]; exact List.mem_cons_of_mem _ hop)
        · simp only [Function.update_of_ne e] at hop
          exact h.owned j op' hop
      · intro b
        rw [← h.value b]
        by_cases e : own b = i
        · simp only [e, Function.update_self, ht, exec_cons]
        · simp only [Function.update_of_ne e]
          refine exec_congr _ ?_
          have : b ≠ a := fun e' => e (e' ▸ hown)
          rw [Function.update_of_ne this]
      · intro j w hj op' rest' hj'
        by_cases e : j = i
        · subst e; simp at hj
        · simp only [Function.update_of_ne e] at hj hj'
          have : op'.1 ≠ a := by
            intro e'
            have := h.owned j op' (by rw [hj']; exact List.mem_cons_self)
            rw [e', hown] at this
            exact e this.symm
          show w = Function.update s.mem a (f (s.mem a)) op'.1
          rw [Function.update_of_ne this]
          exact h.reg j w hj op' rest' hj'

theorem Inv.run {own : α → Nat} {prog : Nat → List (Rmw α V)} {m₀ : α → V} (sched : List Nat) :
    ∀ {s : Loop α V}, Inv own prog m₀ s → Inv own prog m₀ (s.run sched) := by
  induction sched with
  | nil => intro s h; exact h
  | cons i l ih => intro s h; exact ih (h.step i)

theorem exec_flatMap {own : α → Nat} {prog : Nat → List (Rmw α V)} (ho : Owned own prog) (m₀ : α → V)
    (n : Nat) (a : α) : exec ((List.range n).flatMap prog) m₀ a =
      if own a < n then exec (prog (own a)) m₀ a else m₀ a := by
  induction n with
  | zero => simp
  | succ n ih =>
    rw [List.range_succ, List.flatMap_append, List.flatMap_singleton, exec_append]
    by_cases e : own a = n
    · subst e
      rw [if_pos (by omega)]
      refine exec_congr _ ?_
      rw [ih, if_neg (by omega)]
    · rw [exec_ne _ (fun op ho' e' => e (by rw [← e']; exact ho n op ho')), ih]
      by_cases h : own a < n
      · rw [if_pos h, if_pos (by omega)]
      · rw [if_neg h, if_neg (by omega)]

/-- Whatever the schedule: if no address is named by two iterations, the memory after the barrier is the
one the sequential loop leaves. -/
theorem Loop.deterministic {own : α → Nat} {prog : Nat → List (Rmw α V)} (ho : Owned own prog) {n : Nat}
    (hn : ∀ i, n ≤ i → prog i = []) (m₀ : α → V) (sched : List Nat)
    (hd : ((Loop.start prog m₀).run sched).Done) :
    ((Loop.start prog m₀).run sched).mem = exec ((List.range n).flatMap prog) m₀ := by
  have h := Inv.run (own := own) (prog := prog) (m₀ := m₀) sched
    (s := Loop.start prog m₀) ⟨ho, fun _ => rfl, fun i v hv => by simp [Loop.start] at hv⟩
  funext a
  have := h.value a
  rw [hd (own a), exec_nil] at this
  rw [this, exec_flatMap ho]
  by_cases e : own a < n
  · rw [if_pos e]
  · rw [if_neg e, hn _ (by omega), exec_nil]

/-- Steps an iteration still has to make. -/
def Loop.left (s : Loop α V) (i : Nat) : Nat := 2 * (s.todo i).length - if (s.reg i).isSome then 1 else 0

theorem Loop.left_step (s : Loop α V) (i j : Nat) :
    (s.step i).left j = s.left j - if j = i then 1 else 0 := by
  unfold Loop.step
  cases ht : s.todo i with
  | nil =>
    by_cases e : j = i
    · subst e; simp [Loop.left, ht]
    · simp [e]
  | cons op rest =>
    cases hr : s.reg i with
    | none =>
      by_cases e : j = i
      · subst e; simp [Loop.left, hr]
      · simp [Loop.left, e]
    | some v =>
      by_cases e : j = i
      · subst e; simp [Loop.left, ht, hr]; omega
      · simp [Loop.left, e]

theorem Loop.left_run (sched : List Nat) : ∀ (s : Loop α V) (j : Nat),
    (s.run sched).left j = s.left j - sched.count j := by
  induction sched with
  | nil => intro s j; simp [Loop.run]
  | cons i l ih =>
    intro s j
    refine (ih (s.step i) j).trans ?_
    rw [Loop.left_step, List.count_cons]
    by_cases e : j = i
    · subst e; simp; omega
    · have : (i == j) = false := by simpa using fun h => e h.symm
      simp [this, e]

omit [DecidableEq α] in
theorem Loop.done_iff (s : Loop α V) : s.Done ↔ ∀ i, s.left i = 0 := by
  refine forall_congr' fun i => ?_
  unfold Loop.left
  cases ht : s.todo i with
  | nil => simp
  | cons op rest => simp only [List.length_cons]; split_ifs <;> simp; omega

/-- The barrier is passed exactly when every iteration has been given two steps for each of its
statements, in whatever order. -/
theorem Loop.done_run (prog : Nat → List (Rmw α V)) (m₀ : α → V) (sched : List Nat) :
    ((Loop.start prog m₀).run sched).Done ↔ ∀ i, 2 * (prog i).length ≤ sched.count i := by
  rw [Loop.done_iff]
  refine forall_congr' fun i => ?_
  rw [Loop.left_run]
  simp [Loop.left, Loop.start, Nat.sub_eq_zero_iff_le]

end Machine

section Right
variable {R : Type}

/-- Body of the loop over the block columns of `rightMultiply(double*&, const double*)`, SBM.hpp:500-507:
for every block of column `c` the coefficients of `dest.segment(colBase, A.cols()) += Aᵀ * src.segment(rowBase,
A.rows())` (SBM.hpp:373-375). `add` and `dot` (coefficient `b` of `Aᵀ x` for the segment of `x` starting at
the given offset) are any functions, so that rounding is covered. -/
def SBM.rightBody (add : R → R → R) (dot : DMat R → (Nat → R) → Nat → Nat → R) (A : SBM R) (src : Nat → R)
    (c : Nat) : List (Rmw Nat R) :=
  if c < A.cl.n then
    (A.col c).flatMap fun p => (List.range p.2.cols).map fun b =>
      (A.cl.base c + b, fun y => add y (dot p.2 src (A.rl.base p.1) b))
  else []

/-- `rightMultiply(double*&, const double*)` with a given destination and without OpenMP,
SBM.hpp:484-508: the iterations in order. -/
def SBM.rightSeq (add : R → R → R) (dot : DMat R → (Nat → R) → Nat → Nat → R) (A : SBM R)
    (dest src : Nat → R) : Nat → R :=
  exec ((List.range A.cl.n).flatMap (A.rightBody add dot src)) dest

theorem rightBody_owned {add : R → R → R} {dot : DMat R → (Nat → R) → Nat → Nat → R} {A : SBM R} (h : WF A)
    (src : Nat → R) : Owned (fun j => A.cl.upperBound j) (A.rightBody add dot src) := by
  intro c op hop
  unfold SBM.rightBody at hop
  split_ifs at hop with hc
  · obtain ⟨p, hp, hop⟩ := List.mem_flatMap.1 hop
    obtain ⟨b, hb, rfl⟩ := List.mem_map.1 hop
    have hb' : b < A.cl.size c := by
      have := (h.shape c hc p hp).2.2
      rw [← this]; simpa using hb
    exact Layout.upperBound_eq h.cmono hc (by simp) (by simpa using hb')
  · cases hop

/-- **C135** (parallel right multiplication). However OpenMP interleaves the iterations over the block
columns, step by step, the destination ends up exactly as without OpenMP: the same additions in the same
order, so the same rounding. -/
theorem C135_schedule (add : R → R → R) (dot : DMat R → (Nat → R) → Nat → Nat → R) (A : SBM R) (h : WF A)
    (dest src : Nat → R) (sched : List Nat)
    (hd : ((Loop.start (A.rightBody add dot src) dest).run sched).Done) :
    ((Loop.start (A.rightBody add dot src) dest).run sched).mem = A.rightSeq add dot dest src :=
  Loop.deterministic (rightBody_owned h src) (fun i hi => by simp [SBM.rightBody, hi]) dest sched hd

/-- **C135** (the loop ends). All iterations have finished as soon as each has been given two steps for every
coefficient it adds; before that at least one is still running. -/
theorem C135_barrier (add : R → R → R) (dot : DMat R → (Nat → R) → Nat → Nat → R) (A : SBM R)
    (dest src : Nat → R) (sched : List Nat) :
    ((Loop.start (A.rightBody add dot src) dest).run sched).Done ↔
      ∀ c, c < A.cl.n → 2 * ((A.col c).map fun p => p.2.cols).sum ≤ sched.count c := by
  rw [Loop.done_run]
  refine forall_congr' fun c => ?_
  by_cases hc : c < A.cl.n
  · simp [SBM.rightBody, hc, List.length_flatMap]
  · simp [SBM.rightBody, hc]

end Right

section Ring
variable {R : Type} [CommRing R]

/-- Coefficient `b` of `Aᵀ * x.segment(xoff, A.rows())` in exact arithmetic, SBM.hpp:373-375. -/
def dotT (B : DMat R) (x : Nat → R) (xoff b : Nat) : R := ∑ t ∈ Finset.range B.rows, B.e t b * x (xoff + t)

theorem exec_segment (g : Nat → R) (o n : Nat) (y : Nat → R) (j : Nat) :
    exec ((List.range n).map fun b => ((o + b, fun y => y + g b) : Rmw Nat R)) y j =
      if o ≤ j ∧ j < o + n then y j + g (j - o) else y j := by
  induction n with
  | zero => simp
  | succ n ih =>
    rw [List.range_succ, List.map_append, exec_append, List.map_singleton, exec_cons, exec_nil]
    by_cases e : j = o + n
    · subst e
      simp only [Function.update_self]
      rw [ih, if_neg (by omega), if_pos (by omega)]; simp
    · rw [Function.update_of_ne e, ih]
      by_cases h : o ≤ j ∧ j < o + n
      · rw [if_pos h, if_pos (by omega)]
      · rw [if_neg h, if_neg (by omega)]

theorem exec_blocks (A : SBM R) (src : Nat → R) (c : Nat) (ps : List (Nat × DMat R)) (y : Nat → R) :
    exec (ps.flatMap fun p => (List.range p.2.cols).map fun b =>
      ((A.cl.base c + b, fun y => y + dotT p.2 src (A.rl.base p.1) b) : Rmw Nat R)) y =
    ps.foldl (fun y p => atxpy p.2 src (A.rl.base p.1) y (A.cl.base c)) y := by
  induction ps generalizing y with
  | nil => rfl
  | cons p ps ih =>
    rw [List.flatMap_cons, exec_append, ih, List.foldl_cons]
    congr 1
    funext j
    rw [exec_segment (fun b => dotT p.2 src (A.rl.base p.1) b)]
    rfl

theorem rightSeq_eq (A : SBM R) (dest src : Nat → R) : A.rightSeq (· + ·) dotT dest src =
    A.visits.foldl (fun y v => atxpy v.2.2 src (A.rl.base v.1) y (A.cl.base v.2.1)) dest := by
  unfold SBM.rightSeq SBM.visits
  suffices ∀ l : List Nat, (∀ c ∈ l, c < A.cl.n) → ∀ y, exec (l.flatMap (A.rightBody (· + ·) dotT src)) y =
      (l.flatMap fun c => (A.col c).map fun p => (p.1, c, p.2)).foldl
        (fun y v => atxpy v.2.2 src (A.rl.base v.1) y (A.cl.base v.2.1)) y from
    this _ (fun c hc => by simpa using hc) dest
  intro l
  induction l with
  | nil => intro _ y; rfl
  | cons c l ih =>
    intro hl y
    rw [List.flatMap_cons, List.flatMap_cons, exec_append, List.foldl_append,
      ih fun c hc => hl c (List.mem_cons_of_mem _ hc)]
    congr 1
    rw [SBM.rightBody, if_pos (hl c List.mem_cons_self), List.foldl_map]
    exact exec_blocks A src c (A.col c) y

/-- **C135** (what is computed). In exact arithmetic every schedule adds `Aᵀ x` to what the destination
holds, and touches nothing behind it. -/
theorem C135_right_dense (A : SBM R) (h : WF A) (dest src : Nat → R) (sched : List Nat)
    (hd : ((Loop.start (A.rightBody (· + ·) dotT src) dest).run sched).Done) (j : Nat) :
    ((Loop.start (A.rightBody (· + ·) dotT src) dest).run sched).mem j =
      if j < A.cl.total then dest j + ∑ i ∈ Finset.range A.rl.total, A.toDense.e i j * src i
      else dest j := by
  rw [C135_schedule _ _ A h dest src sched hd]
  have key : ∀ y : Nat → R, A.visits.foldl (fun y v => atxpy v.2.2 src (A.rl.base v.1) y (A.cl.base v.2.1)) y j =
      y j + A.rightMulVec src j := by
    intro y
    have hs : ∀ (y : Nat → R) (v : Nat × Nat × DMat R) (i : Nat),
        atxpy v.2.2 src (A.rl.base v.1) y (A.cl.base v.2.1) i = y i +
        (if A.cl.base v.2.1 ≤ i ∧ i < A.cl.base v.2.1 + v.2.2.cols then
          ∑ t ∈ Finset.range v.2.2.rows, v.2.2.e t (i - A.cl.base v.2.1) * src (A.rl.base v.1 + t) else 0) := by
      intro y v i; unfold atxpy; split_ifs <;> simp
    unfold SBM.rightMulVec
    rw [foldl_add_sum _ _ hs, foldl_add_sum _ _ hs, zero_add]
  by_cases hj : j < A.cl.total
  · rw [if_pos hj, ← C52_rightMulVec_dense A h src j hj, rightSeq_eq, key]
  · rw [if_neg hj]
    refine exec_ne _ fun op hop e => hj ?_
    obtain ⟨c, hc, hop⟩ := List.mem_flatMap.1 hop
    have hc' : c < A.cl.n := by simpa using hc
    rw [SBM.rightBody, if_pos hc'] at hop
    obtain ⟨p, hp, hop⟩ := List.mem_flatMap.1 hop
    obtain ⟨b, hb, rfl⟩ := List.mem_map.1 hop
    have hb' : b < A.cl.size c := by
      rw [← (h.shape c hc' p hp).2.2]; simpa using hb
    have h1 := Layout.base_add_size h.cmono hc'
    have h2 := Layout.base_le h.cmono (r := c + 1) (s := A.cl.n) (by omega) (by omega)
    rw [Layout.total_eq]
    simp only at e
    omega

/-- Body of the loop over the block columns of `clear(dealloc)`, SBM.hpp:101-111, on the column as a whole:
every block is set to zero, or all are deleted and the column is emptied. Simplified: what `delete` does to
the blocks is the subject of `Verif/SBMOwn`. -/
def SBM.clearBody (A : SBM R) (dealloc : Bool) (c : Nat) : List (Rmw Nat (List (Nat × DMat R))) :=
  if c < A.cl.n then
    if A.hasStorage && dealloc then [(c, fun _ => [])]
    else (List.range (A.col c).length).map fun k =>
      (c, fun l => l.modify k fun p => (p.1, ⟨p.2.rows, p.2.cols, fun _ _ => 0⟩))
  else []

theorem exec_zero (c : Nat) (f : Nat × DMat R → Nat × DMat R) (m : Nat → List (Nat × DMat R)) (n k : Nat) :
    (exec ((List.range n).map fun k => ((c, fun l => l.modify k f) : Rmw Nat _)) m c)[k]? =
      if k < n then (m c)[k]?.map f else (m c)[k]? := by
  induction n with
  | zero => simp
  | succ n ih =>
    rw [List.range_succ, List.map_append, exec_append, List.map_singleton, exec_cons, exec_nil,
      Function.update_self]
    simp only
    rw [List.getElem?_modify, ih]
    by_cases e : n = k
    · subst e; simp
    · by_cases h : k < n
      · rw [if_pos h, if_pos (by omega)]; simp [e]
      · rw [if_neg h, if_neg (by omega)]; simp [e]

/-- **C135** (parallel clearing). However OpenMP interleaves the iterations over the block columns, the
columns end up as without OpenMP. -/
theorem C135_clear (A : SBM R) (dealloc : Bool) (sched : List Nat)
    (hd : ((Loop.start (A.clearBody dealloc) A.col).run sched).Done) (c : Nat) (hc : c < A.cl.n) :
    ((Loop.start (A.clearBody dealloc) A.col).run sched).mem c = (A.clear dealloc).col c := by
  have ho : Owned (fun c => c) (A.clearBody dealloc) := by
    intro i op hop
    unfold SBM.clearBody at hop
    split_ifs at hop
    · simp only [List.mem_singleton] at hop; subst hop; rfl
    · obtain ⟨k, -, rfl⟩ := List.mem_map.1 hop; rfl
    · cases hop
  rw [Loop.deterministic (n := A.cl.n) ho (fun i hi => by simp [SBM.clearBody, hi]) A.col sched hd,
    exec_flatMap ho, if_pos hc, SBM.clearBody, if_pos hc]
  unfold SBM.clear
  by_cases hs : (A.hasStorage && dealloc) = true
  · simp [hs]
  · simp only [hs]
    refine List.ext_getElem? fun k => ?_
    refine (exec_zero c (fun p : Nat × DMat R => (p.1, (⟨p.2.rows, p.2.cols, fun _ _ => 0⟩ : DMat R)))
      A.col (A.col c).length k).trans ?_
    by_cases hk : k < (A.col c).length
    · rw [if_pos hk]; simp
    · rw [if_neg hk]
      have : (A.col c)[k]? = none := by simpa using hk
      simp [this]

/-- A matrix with two block columns of widths 2 and 1, three blocks. -/
def parDemo : SBM Int := ⟨demoLayout, demoLayout, true, fun c =>
  if c = 0 then [(0, ⟨2, 2, fun i j => if i = j then 1 else 3⟩), (1, ⟨1, 2, fun _ _ => 5⟩)]
  else if c = 1 then [(0, ⟨2, 1, fun _ _ => 7⟩)] else []⟩

theorem parDemo_WF : WF parDemo := by
  refine ⟨demoLayout_mono, demoLayout_mono, fun c hc => ?_, fun c hc p hp => ?_⟩
  · have : c < 2 := hc
    interval_cases c <;> simp [parDemo]
  · have : c < 2 := hc
    interval_cases c
    · simp [parDemo] at hp
      rcases hp with rfl | rfl <;> decide
    · simp [parDemo] at hp
      subst hp; decide

/-- A schedule that lets the two iterations alternate: the hypothesis of the theorems is met, and the
result is `dest + Aᵀ src`. -/
example : ((Loop.start (parDemo.rightBody (· + ·) dotT (fun i => i + 1)) (fun _ => 100)).run
      [0, 1, 0, 1, 0, 0, 0, 0, 0, 0]).Done ∧
    ((Loop.start (parDemo.rightBody (· + ·) dotT (fun i => i + 1)) (fun _ => 100)).run
      [0, 1, 0, 1, 0, 0, 0, 0, 0, 0]).mem 2 = 121 := by
  have hd : ((Loop.start (parDemo.rightBody (· + ·) dotT (fun i => i + 1)) (fun _ => 100)).run
      [0, 1, 0, 1, 0, 0, 0, 0, 0, 0]).Done := by
    rw [C135_barrier]
    intro c hc
    have : c < 2 := hc
    interval_cases c <;> decide
  refine ⟨hd, ?_⟩
  rw [C135_right_dense parDemo parDemo_WF _ _ _ hd]
  decide +kernel

/-- Clearing the same matrix with the iterations alternating: the hypothesis is met. -/
example : ((Loop.start (parDemo.clearBody false) parDemo.col).run [0, 1, 0, 1, 0, 0]).Done := by
  rw [Loop.done_run]
  intro c
  by_cases h0 : c = 0
  · subst h0; decide
  · by_cases h1 : c = 1
    · subst h1; decide
    · have : ¬ c < 2 := by omega
      simp [SBM.clearBody, parDemo, demoLayout, this]

/-- Disjoint addresses are needed: two iterations adding 1 to the same address (what the loop of
`multiply`, SBM.hpp:388-397, does, which is not run in parallel) can lose an update. -/
example : ∃ sched, ((Loop.start (fun i => if i < 2 then [((0 : Nat), fun y : Int => y + 1)] else [])
      (fun _ => 0)).run sched).Done ∧
    ((Loop.start (fun i => if i < 2 then [((0 : Nat), fun y : Int => y + 1)] else [])
      (fun _ => 0)).run sched).mem 0 = 1 := by
  refine ⟨[0, 1, 0, 1], ?_, by decide⟩
  rw [Loop.done_run]
  intro i
  by_cases h0 : i = 0
  · subst h0; decide
  · by_cases h1 : i = 1
    · subst h1; decide
    · simp [show ¬ i < 2 by omega]

end Ring
end Verif.SBM
