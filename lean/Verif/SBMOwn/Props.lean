import Verif.SBMOwn.View

/-!
Claims C113 and C114: ownership of the blocks of sparse block matrices.
-/
namespace Verif.SBMOwn
open Verif.MatrixStack (DMat)
open Verif.SBM (Layout sliceLayout)

variable {R : Type} [CommRing R]

/-- A layout with one block of size one, used in examples. -/
def one : Layout := ⟨1, fun _ => 1⟩

/-- A one by one block, used in examples. -/
def blk (a : ℤ) : DMat ℤ := ⟨1, 1, fun _ _ => a⟩

/-- **C113** (partial: copies of matrices without block rows or block columns are undefined behaviour, `C113_empty_copy_counterexample`; views are excluded, see C114). In every program without views,
matrices behave as values: copies are deep, moves transfer the value and leave a matrix without blocks, and no operation changes a matrix it does not name. The program has undefined behaviour exactly
if the program on values has it, for the same reason, and never because a deleted block is accessed or a block is deleted twice. If it runs, every block access returns what the values say. -/
theorem C113_values_partial (ops : List (Op R)) (hop : ∀ op ∈ ops, op.NoView) :
    (∀ e, run init ops = .error e ↔ vrun (fun _ => none) ops = .error e) ∧
    run init ops ≠ .error .dangling ∧ run init ops ≠ .error .doubleDelete ∧
    ∀ w, run init ops = .ok w → ∃ v, vrun (fun _ => none) ops = .ok v ∧ (∀ x, (w.obj x).isSome = (v x).isSome) ∧
      (∀ x o q, w.obj x = some o → v x = some q → o.rl = q.rl ∧ o.cl = q.cl ∧ o.store = q.store) ∧
      ∀ x r c, read w x r c = vread v x r c := by
  have s := safe_run ops (init : World R) Inv.init
  have nv0 : NV (init : World R) := by intro x o h; cases h
  have a := agree_run ops (init : World R) Inv.init nv0 hop
  have h0 : abs (init : World R) = fun _ => none := rfl
  rw [h0] at a
  cases e : run init ops with
  | error f =>
    rw [e] at a s
    obtain ⟨a, a'⟩ := a
    refine ⟨fun e' => by rw [a]; simp, by simpa using a', by simpa [Safe] using s, fun w hw => by cases hw⟩
  | ok w =>
    rw [e] at a s
    obtain ⟨nv, a⟩ := a
    refine ⟨fun e' => ⟨fun h => (by cases h), fun h => (by rw [a] at h; cases h)⟩, by simp, by simp, ?_⟩
    rintro w' ⟨⟩
    refine ⟨abs w, a, fun x => by simp [abs], ?_, fun x r c => read_abs s nv x r c⟩
    intro x o q hx hq
    rw [abs_some hx] at hq
    cases hq
    exact ⟨rfl, rfl, rfl⟩

/-- A program in which a copy is changed after it was taken, and a matrix is moved: the copy and the original have different blocks, and the moved matrix has no layout any more. -/
example : ∃ w : World ℤ, run init [.construct 0 one one true, .write 0 0 0 (blk 5), .copyConstruct 1 0, .write 1 0 0 (blk 7), .moveConstruct 2 0, .scale 2 3] = .ok w ∧
    (∃ B, read w 1 0 0 = .ok (some B) ∧ B.e 0 0 = 7) ∧ (∃ B, read w 2 0 0 = .ok (some B) ∧ B.e 0 0 = 15) ∧ read w 0 0 0 = .error .misuse :=
  ⟨_, rfl, ⟨_, rfl, rfl⟩, ⟨_, rfl, rfl⟩, rfl⟩

/-- **C113** (negation). Copying or assigning a default-constructed matrix takes the address of the first element of an empty vector. -/
theorem C113_empty_copy_counterexample :
    run (init : World ℤ) [.construct 0 ⟨0, fun _ => 0⟩ ⟨0, fun _ => 0⟩ true, .copyConstruct 1 0] = .error .emptyVector ∧
    run (init : World ℤ) [.construct 0 ⟨0, fun _ => 0⟩ ⟨0, fun _ => 0⟩ true, .construct 1 one one true, .assign 1 0] = .error .emptyVector := ⟨rfl, rfl⟩

/-- **C114** (ledger). In every program, with views and with undefined accesses through them or not, no block is deleted twice, and as long as the program runs every allocated block belongs to
exactly one matrix with storage, which has only allocated blocks. -/
theorem C114_ledger (ops : List (Op R)) : run init ops ≠ .error .doubleDelete ∧ ∀ w, run init ops = .ok w → Accounted w := by
  have s := safe_run ops (init : World R) Inv.init
  cases e : run init ops with
  | error f => rw [e] at s; exact ⟨by simpa [Safe] using s, fun w hw => by cases hw⟩
  | ok w =>
    rw [e] at s
    refine ⟨by simp, ?_⟩
    rintro w' ⟨⟩
    refine ⟨fun a ha => ?_, fun x o hx hs a ha => Inv.owned s x o hx hs a ha⟩
    obtain ⟨x, o, hx, hs, hm⟩ := Inv.noleak s a ha
    refine ⟨x, ⟨o, hx, hs, hm⟩, ?_⟩
    rintro y ⟨p, hy, hp, hm'⟩
    exact Inv.disj s y x p o hy hx hp hs a hm' hm

/-- **C114** (no leak). When all matrices of a program have been destroyed, all blocks have been deleted. -/
theorem C114_no_leak (ops : List (Op R)) (w : World R) (e : run init ops = .ok w) (hw : ∀ x, w.obj x = none) : ∀ a, w.heap a = none := by
  intro a
  by_contra ha
  obtain ⟨x, ⟨o, hx, _⟩, _⟩ := ((C114_ledger ops).2 w e).1 a ha
  rw [hw x] at hx; cases hx

/-- A program with copies, a view and moves that ends without matrices and without blocks. -/
example : ∃ w : World ℤ, run init [.construct 0 one one true, .write 0 0 0 (blk 5), .copyConstruct 1 0, .slice 2 0 0 1 0 1 false, .moveAssign 1 0, .destroy 0, .destroy 2, .destroy 1] = .ok w ∧
    w.next = 2 ∧ w.heap 0 = none ∧ w.heap 1 = none ∧ w.obj 0 = none ∧ w.obj 1 = none ∧ w.obj 2 = none := ⟨_, rfl, rfl, rfl, rfl, rfl, rfl, rfl⟩

/-- **C114** (partial: only while neither the view nor the matrix it was taken from is destroyed, assigned to, moved, or deallocated, see the counterexamples; blocks allocated later are not in the
view). A view shows the blocks of the matrix it was taken from: whatever the program does to other matrices, and whatever it writes through the view or through the owner, a block of the view can be
accessed and is the block of the owner at the shifted position. -/
theorem C114_view_partial (pre post : List (Op R)) (w0 w : World R) (x y rmin rmax cmin cmax : Nat) (p : Obj)
    (e0 : run init pre = .ok w0) (hy : w0.obj y = some p) (hp : p.store = true)
    (e : run w0 (.slice x y rmin rmax cmin cmax false :: post) = .ok w) (hl : ∀ op ∈ post, op.Leaves x y)
    (r c : Nat) (hr : r < rmax - rmin) (hc : c < cmax - cmin) (B : DMat R) (hB : read w0 y (rmin + r) (cmin + c) = .ok (some B)) :
    ∃ B', read w x r c = .ok (some B') ∧ read w y (rmin + r) (cmin + c) = .ok (some B') := by
  have s0 := safe_run pre (init : World R) Inv.init
  rw [e0] at s0
  have s0 : Inv w0 := s0
  have hread : ∃ a, find p.ents (cmin + c, rmin + r) = some a := by
    simp only [read, get_ok hy, bind, Except.bind, pure, Except.pure] at hB
    cases hf : find p.ents (cmin + c, rmin + r) with
    | some a => exact ⟨a, rfl⟩
    | none => rw [hf] at hB; split_ifs at hB; cases hB
  obtain ⟨a, hf⟩ := hread
  simp only [run] at e
  cases e1 : step w0 (.slice x y rmin rmax cmin cmax false) with
  | error f => rw [e1] at e; cases e
  | ok w1 =>
    rw [e1] at e
    have s1 := safe_step s0 (.slice x y rmin rmax cmin cmax false)
    rw [e1] at s1
    cases hx0 : w0.obj x with
    | some q => simp [step, fresh_err hx0, bind, Except.bind] at e1
    | none =>
      have hxy : y ≠ x := by rintro rfl; rw [hy] at hx0; cases hx0
      simp only [step, fresh_ok hx0, get_ok hy, bind, Except.bind, pure, Except.pure, Bool.false_eq_true, if_false] at e1
      split_ifs at e1 with hrange
      · cases e1
        set o : Obj := ⟨sliceLayout p.rl rmin rmax, sliceLayout p.cl cmin cmax, false, sliceEnts p.ents rmin rmax cmin cmax⟩ with ho
        have hx1 : (w0.set x o).obj x = some o := by simp [World.set]
        have hy1 : (w0.set x o).obj y = some p := by simp [World.set, hxy, hy]
        obtain ⟨hx2, p', hy2, g⟩ := leaves_run post s1 hx1 hy1 rfl hl e
        have e : run (w0.set x o) post = .ok w := e
        have s2 := safe_run post _ s1
        rw [e] at s2
        have s2 : Inv w := s2
        have hfx : find o.ents (c, r) = some a := by
          show find (sliceEnts p.ents rmin rmax cmin cmax) (c, r) = some a
          rw [find_slice, if_pos ⟨hc, hr⟩, hf]
        have hfy := g.2.2.2 _ _ hf
        obtain ⟨B', hB'⟩ := Option.ne_none_iff_exists'.1 (s2.owned y p' hy2 (by rw [g.1, hp]) a (find_mem hfy))
        refine ⟨B', ?_, ?_⟩
        · simp only [read, get_ok hx2, bind, Except.bind, pure, Except.pure]
          rw [if_pos (show r < o.rl.n ∧ c < o.cl.n from ⟨by simpa [ho, sliceLayout] using hr, by simpa [ho, sliceLayout] using hc⟩), hfx]
          simp [hB']
        · simp only [read, get_ok hy2, bind, Except.bind, pure, Except.pure, g.2.1, g.2.2.1]
          rw [if_pos (by omega), hfy]
          simp [hB']

/-- A write through the view is seen by the owner. -/
example : ∃ w : World ℤ, run init [.construct 0 one one true, .write 0 0 0 (blk 5), .slice 1 0 0 1 0 1 false, .write 1 0 0 (blk 7)] = .ok w ∧
    ∃ B, read w 0 0 0 = .ok (some B) ∧ B.e 0 0 = 7 := ⟨_, rfl, _, rfl, rfl⟩

/-- **C114** (negation). Assigning a matrix to a view sets the blocks of the matrix the view was taken from to zero, although the view is given blocks of its own: the owner had 5 and has 0, the view
has the assigned 7. Assigning the owner itself to its view destroys the value: both have 0. -/
theorem C114_assign_view_counterexample :
    (∃ w : World ℤ, run init [.construct 0 one one true, .write 0 0 0 (blk 5), .slice 1 0 0 1 0 1 false, .construct 2 one one true, .write 2 0 0 (blk 7), .assign 1 2] = .ok w ∧
      (∃ B, read w 0 0 0 = .ok (some B) ∧ B.e 0 0 = 0) ∧ ∃ B, read w 1 0 0 = .ok (some B) ∧ B.e 0 0 = 7) ∧
    ∃ w : World ℤ, run init [.construct 0 one one true, .write 0 0 0 (blk 5), .slice 1 0 0 1 0 1 false, .assign 1 0] = .ok w ∧
      (∃ B, read w 0 0 0 = .ok (some B) ∧ B.e 0 0 = 0) ∧ ∃ B, read w 1 0 0 = .ok (some B) ∧ B.e 0 0 = 0 :=
  ⟨⟨_, rfl, ⟨_, rfl, rfl⟩, ⟨_, rfl, rfl⟩⟩, ⟨_, rfl, ⟨_, rfl, rfl⟩, ⟨_, rfl, rfl⟩⟩⟩

/-- **C114** (negation). A view of a matrix that was destroyed or deallocated accesses deleted blocks; so does a matrix to which a view of itself is assigned, by copying or by moving. -/
theorem C114_dangling_counterexample :
    (∃ w : World ℤ, run init [.construct 0 one one true, .write 0 0 0 (blk 5), .slice 1 0 0 1 0 1 false, .destroy 0] = .ok w ∧ read w 1 0 0 = .error .dangling) ∧
    (∃ w : World ℤ, run init [.construct 0 one one true, .write 0 0 0 (blk 5), .slice 1 0 0 1 0 1 false, .moveAssign 0 1] = .ok w ∧ read w 0 0 0 = .error .dangling) ∧
    run (init : World ℤ) [.construct 0 one one true, .write 0 0 0 (blk 5), .slice 1 0 0 1 0 1 false, .assign 0 1] = .error .dangling :=
  ⟨⟨_, rfl, rfl⟩, ⟨_, rfl, rfl⟩, rfl⟩

/-- **C114** (negation). A view does not have the blocks that its owner allocates later, and cannot allocate blocks itself: the block the owner has is missing from the view, and writing it through
the view dereferences a null pointer. -/
theorem C114_view_grows_counterexample :
    (∃ w : World ℤ, run init [.construct 0 one one true, .slice 1 0 0 1 0 1 false, .write 0 0 0 (blk 5)] = .ok w ∧
      (∃ B, read w 0 0 0 = .ok (some B) ∧ B.e 0 0 = 5) ∧ read w 1 0 0 = .ok none) ∧
    run (init : World ℤ) [.construct 0 one one true, .slice 1 0 0 1 0 1 false, .write 0 0 0 (blk 5), .write 1 0 0 (blk 7)] = .error .null :=
  ⟨⟨_, rfl, ⟨_, rfl, rfl⟩, rfl⟩, rfl⟩

end Verif.SBMOwn
