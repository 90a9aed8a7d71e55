import Verif.Proofs.Work
import Verif.Props.DemoChain
/-
C59: how many bytes `Marshal` moves.
-/
namespace Verif

/-- C59: a successful `Marshal` appends to its buffers at most (n + 1) times the bytes of its result, where n is the number of struct buffers in
use at the same time, and copies the result once; a result of `k` bytes has at most k/6 struct buffers in use at the same time. -/
theorem C59_work_bound (W : World) (h : Heap) (cf fuel : Nat) (c c' : Ctx) (a : Option (Ty × GV)) (out : Bytes)
    (hm : marshal W h cf fuel c a = (c', .ok out)) :
    (marshalWork W h cf fuel c a).bytes ≤ ((marshalWork W h cf fuel c a).bufs + 2) * out.length ∧
      6 * (marshalWork W h cf fuel c a).bufs ≤ out.length := by
  cases a with
  | none =>
    cases hm
    simp [marshalWork, appendNull]
  | some tv =>
    obtain ⟨t, v⟩ := tv
    simp only [marshal] at hm
    simp only [marshalWork]
    revert hm
    rcases compileE W cf [] t with s | e | p | _ <;> intro hm
    · simp only [andThen, workOk] at hm ⊢
      have h1 := (encF_fits W h cf fuel).comp [] t c [] v
      revert hm h1
      generalize (encFWork W h cf fuel).comp [] t c [] v = w
      rcases (encF W h cf fuel).comp [] t c [] v with ⟨c1, r⟩
      intro hm h1
      cases hm
      obtain ⟨tx, ht, h2, h3⟩ := h1 out rfl
      simp only [List.nil_append] at ht
      subst ht
      simp only [Work.then, appended, Nat.max_zero, List.length_nil, Nat.sub_zero]
      refine ⟨?_, h3⟩
      rw [show w.bufs + 2 = (w.bufs + 1).succ from rfl, Nat.succ_mul]
      omega
    all_goals simp [andThen] at hm

/-- Without regard to how structs are nested, the number of bytes moved is at most quadratic in the length of the result. -/
theorem C59_work_quadratic (W : World) (h : Heap) (cf fuel : Nat) (c c' : Ctx) (a : Option (Ty × GV)) (out : Bytes)
    (hm : marshal W h cf fuel c a = (c', .ok out)) : (marshalWork W h cf fuel c a).bytes ≤ (out.length / 6 + 2) * out.length := by
  obtain ⟨h1, h2⟩ := C59_work_bound W h cf fuel c c' a out hm
  refine Nat.le_trans h1 (Nat.mul_le_mul_right _ ?_)
  omega

/-- A list of two nodes: 60 bytes of text, 199 bytes moved, two struct buffers. -/
example : marshal Demo.W Demo.heap 9 9 .clean (some (.struct 1, .struct [.ptr 3001, .int 1])) =
      (.clean, .ok (b! "a:2:{s:4:\"next\";a:2:{s:4:\"next\";N;s:1:\"n\";i:2;}s:1:\"n\";i:1;}")) ∧
    marshalWork Demo.W Demo.heap 9 9 .clean (some (.struct 1, .struct [.ptr 3001, .int 1])) = { bytes := 199, bufs := 2 } := by
  refine ⟨by krfl, by krfl⟩

/-- The bound is reached up to a factor: for a linked list of `n + 1` nodes the result has 29·n + 31 bytes, `n + 1` struct buffers are in use at the
same time, and more than 14·n² bytes are moved. So the bytes moved are not linear in the length of the result. -/
theorem C59_list_witness (n : Nat) : ∃ out c', marshal Demo.W Demo.chain 9 (n + 2) .clean (some (.struct 1, Demo.chain.deref (.struct 1) n)) = (c', .ok out) ∧
    out.length = 29 * n + 31 ∧
    (marshalWork Demo.W Demo.chain 9 (n + 2) .clean (some (.struct 1, Demo.chain.deref (.struct 1) n))).bufs = n + 1 ∧
    2 * (marshalWork Demo.W Demo.chain 9 (n + 2) .clean (some (.struct 1, Demo.chain.deref (.struct 1) n))).bytes = 29 * (n * n) + 195 * n + 174 := by
  obtain ⟨⟨c', h1⟩, h2⟩ := Demo.chain_run n (n + 2) (Nat.le_refl _) [] .clean [] (by simp [Ctx.clean])
  have hc : compileE Demo.W 9 [] (.struct 1) = .ok [.struct 1] := by krfl
  refine ⟨Demo.chainText n, c', ?_, Demo.chainText_length n, ?_, ?_⟩
  · simp only [marshal, hc, andThen, h1, List.nil_append]
  · simp only [marshalWork, hc, workOk, h1, h2, Work.then, appended]; omega
  · have := Demo.chainWork_eq n
    simp only [marshalWork, hc, workOk, h1, h2, Work.then, appended, List.nil_append, List.length_nil, Nat.sub_zero, Demo.chainText_length]
    omega

end Verif
