import Verif.Lemmas.Flat

/-! Helper lemmas: the flat-memory sample refines the sample on abstract operators, and the concrete
operators compute the products of the matrices they store. -/

set_option linter.unusedSectionVars false

namespace Imate.Flat

open Imate.Lanczos Matrix Spec

section
variable {K : Type _} [Field K] [LinearOrder K] {n : Nat}

theorem inquiryNodes_refines (ext : External K) (opt : Options K) {fop : LinearOperator K}
    {op : Operator K n} (hn : fop.numRows = n) {q : Option K} {t : K}
    (hd : Computes (fop.dot q) (op.dot t)) (htd : Computes (fop.transposeDot q) (op.transposeDot t))
    {a : Array K} {z : Fin n → K} (ha : Begins a z) (j1 j2 : Nat → K) (alpha beta : Array K)
    {r : Nodes K × Array K × Array K}
    (h : Lanczos.inquiryNodes ext opt op z t alpha beta = .ok r) :
    inquiryNodes ext opt fop a q j1 j2 alpha beta = .ok r := by
  unfold Lanczos.inquiryNodes at h
  unfold inquiryNodes
  split at h
  · obtain ⟨c, h1, h2⟩ := bind_ok h
    have := golubKahn_refines ext.sqrt ext.eps hd htd ha opt.degree opt.tol opt.orthogonalize j1 j2
      alpha beta h1
    rw [if_pos (by assumption), hn, this]
    exact h2
  · obtain ⟨c, h1, h2⟩ := bind_ok h
    have := lanczos_refines ext.sqrt ext.eps hd ha opt.degree opt.tol opt.orthogonalize j1 j2
      alpha beta h1
    rw [if_neg (by assumption), hn, this]
    exact h2

theorem inquiryBody_refines (ext : External K) (opt : Options K) {fop : LinearOperator K}
    {op : Operator K n} (hn : fop.numRows = n) {parameters abs : Array K}
    (hpar : ∀ j t, abs[j]? = some t → ∃ q, fop.parameter parameters j = .ok q ∧
      Computes (fop.dot q) (op.dot t) ∧ Computes (fop.transposeDot q) (op.transposeDot t))
    {a : Array K} {z : Fin n → K} (ha : Begins a z) (j1 j2 : Nat → Nat → K) (converged : Array Bool)
    (required num j : Nat) (s : SampleState K) {s' : SampleState K}
    (h : Lanczos.inquiryBody ext opt op abs z converged required num j s = .ok s') :
    inquiryBody ext opt fop parameters a j1 j2 converged required num j s = .ok s' := by
  unfold Lanczos.inquiryBody at h
  obtain ⟨b, h1, h⟩ := bind_ok h
  unfold inquiryBody
  rw [h1, Except.ok_bind']
  split at h
  · rw [if_pos (by assumption)]; exact h
  · rw [if_neg (by assumption)]
    obtain ⟨t, h2, h⟩ := bind_ok h
    obtain ⟨q, h3, h4, h5⟩ := hpar j t (rd_ok_inv h2)
    obtain ⟨r, h6, h⟩ := bind_ok h
    rw [h3, Except.ok_bind', inquiryNodes_refines ext opt hn h4 h5 ha (j1 j) (j2 j) _ _ h6]
    exact h

variable {K : Type} [Field K] [LinearOrder K]

theorem slqSample_refines {σ : Type} (ext : External K) (opt : Options K) {fop : LinearOperator K}
    {op : Operator K n} (hn : fop.numRows = n) (hk : fop.relationKnown = op.relationKnown)
    (he : fop.getEigenvalue = op.getEigenvalue) {parameters abs : Array K}
    (hpar : ∀ j t, abs[j]? = some t → ∃ q, fop.parameter parameters j = .ok q ∧
      Computes (fop.dot q) (op.dot t) ∧ Computes (fop.transposeDot q) (op.transposeDot t))
    (hall : op.relationKnown = true → abs = parameters) (f : K → K) (num : Nat)
    {next : σ → Except Fault (BitVec 64 × σ)} {g g' : σ} {v a : Array K} {z : Fin n → K}
    (hgen : Random.generateArray next g v n = .ok (a, g')) (ha : Begins a z)
    (j1 j2 : Nat → Nat → K) (ja jb : Array K) (converged : Array Bool) (estimate : Array K)
    {c : Array Bool} {e : Array K}
    (h : Lanczos.slqSample ext opt op f abs num z ja jb converged estimate = .ok (c, e)) :
    slqSample ext opt fop f parameters num next g v j1 j2 ja jb converged estimate =
      .ok (c, e, a, g') := by
  have hreq : requiredInquiries fop.facade num = requiredInquiries op num := by
    unfold requiredInquiries; rw [show fop.facade.relationKnown = _ from hk]
  have hres : resetConverged fop.facade num converged = resetConverged op num converged := by
    unfold resetConverged; rw [show fop.facade.relationKnown = _ from hk]
  unfold Lanczos.slqSample at h
  obtain ⟨s, h1, h⟩ := bind_ok h
  obtain ⟨nodes, h2, h⟩ := bind_ok h
  obtain ⟨e', h3, h⟩ := bind_ok h
  cases h
  obtain ⟨s', h4, rfl⟩ := forRange_sim (fun s t => s = t)
    (bodyC := inquiryBody ext opt fop parameters a j1 j2 converged
      (requiredInquiries fop.facade num) num)
    (fun i s t t' hst ht => by
      subst hst
      exact ⟨t', inquiryBody_refines ext opt hn hpar ha j1 j2 converged _ num i s
        (by rw [hreq]; exact ht), rfl⟩) rfl h1
  have hnodes : allNodes fop.facade parameters num s'.nodes = .ok nodes := by
    rw [← h2]
    unfold allNodes shiftNodes
    rw [show fop.facade.relationKnown = _ from hk]
    by_cases hr : op.relationKnown = true
    · rw [hall hr]
      have : shiftBody fop.facade parameters = shiftBody op parameters := by
        funext j nodes
        unfold shiftBody
        rw [show fop.facade.getEigenvalue = _ from he]
      rw [this]
    · simp only [hr, Bool.false_and, Bool.false_eq_true, if_false]
  unfold slqSample
  simp only [hn, hgen, Except.ok_bind']
  rw [hreq] at h4 ⊢
  rw [h4, Except.ok_bind', hnodes, Except.ok_bind', hres, h3]
  rfl

end

/-! ### the products of the concrete operators -/

section
variable {K : Type _} [Field K] [LinearOrder K] {n : Nat} {S T : StoredMatrix K}
  {A B : Matrix (Fin n) (Fin n) K}

theorem matrix_computes (hS : Represents S A) (q : Option K) :
    Computes ((LinearOperator.matrix S n n).dot q) (fun x => .ok (A *ᵥ x)) ∧
    Computes ((LinearOperator.matrix S n n).transposeDot q) (fun x => .ok (Aᵀ *ᵥ x)) := by
  constructor
  · intro b c v w hb hc hw
    cases hw
    exact StoredMatrix.dot_long hS hb c hc
  · intro b c v w hb hc hw
    cases hw
    exact StoredMatrix.transposeDot_long hS hb c hc

theorem shifted_computes (hS : Represents S A) {O : AffineOp K}
    (hO : AffineOp.construct S none n n = .ok O) (t : K) :
    Computes ((LinearOperator.affine O).dot (some t)) (fun x => .ok ((A + t • 1) *ᵥ x)) ∧
    Computes ((LinearOperator.affine O).transposeDot (some t))
      (fun x => .ok ((A + t • 1)ᵀ *ᵥ x)) := by
  cases hO
  have hi : (if n < n then n else n) = n := by split <;> rfl
  constructor
  · intro b c v w hb hc hw
    cases hw
    obtain ⟨c1, h1, h2⟩ := StoredMatrix.dot_long hS hb c hc
    obtain ⟨c2, h3, h4⟩ := VectorOps.subtractScaledVector_long hb (-t) h2.begins
    refine ⟨c2, ?_, ?_⟩
    · show AffineOp.dot _ (some t) b c = _
      unfold AffineOp.dot
      simp only [h1, Except.ok_bind', if_true, hi, AffineOp.addScaledVector, h3]
    · rw [add_mulVec, smul_mulVec, one_mulVec]
      rw [neg_smul, sub_neg_eq_add] at h4
      exact h2.trans h4
  · intro b c v w hb hc hw
    cases hw
    obtain ⟨c1, h1, h2⟩ := StoredMatrix.transposeDot_long hS hb c hc
    obtain ⟨c2, h3, h4⟩ := VectorOps.subtractScaledVector_long hb (-t) h2.begins
    refine ⟨c2, ?_, ?_⟩
    · show AffineOp.transposeDot _ (some t) b c = _
      unfold AffineOp.transposeDot
      simp only [h1, Except.ok_bind', if_true, hi, AffineOp.addScaledVector, h3]
    · rw [transpose_add, transpose_smul, transpose_one, add_mulVec, smul_mulVec, one_mulVec]
      rw [neg_smul, sub_neg_eq_add] at h4
      exact h2.trans h4

theorem pencil_computes (hS : Represents S A) (hT : Represents T B) {O : AffineOp K}
    (hI : T.isIdentity n n = .ok false)
    (hO : AffineOp.construct S (some T) n n = .ok O) (t : K) :
    Computes ((LinearOperator.affine O).dot (some t)) (fun x => .ok ((A + t • B) *ᵥ x)) ∧
    Computes ((LinearOperator.affine O).transposeDot (some t))
      (fun x => .ok ((A + t • B)ᵀ *ᵥ x)) := by
  simp only [AffineOp.construct, hI, Except.ok_bind', Bool.false_eq_true, if_false,
    Except.ok.injEq] at hO
  subst hO
  constructor
  · intro b c v w hb hc hw
    cases hw
    obtain ⟨c1, h1, h2⟩ := StoredMatrix.dot_long hS hb c hc
    obtain ⟨c2, h3, h4⟩ := StoredMatrix.dotPlus_long hT hb t h2.begins
    refine ⟨c2, ?_, ?_⟩
    · show AffineOp.dot _ (some t) b c = _
      unfold AffineOp.dot
      simp only [h1, Except.ok_bind', Bool.false_eq_true, if_false, h3]
    · rw [add_mulVec, smul_mulVec]
      exact h2.trans h4
  · intro b c v w hb hc hw
    cases hw
    obtain ⟨c1, h1, h2⟩ := StoredMatrix.transposeDot_long hS hb c hc
    obtain ⟨c2, h3, h4⟩ := StoredMatrix.transposeDotPlus_long hT hb t h2.begins
    refine ⟨c2, ?_, ?_⟩
    · show AffineOp.transposeDot _ (some t) b c = _
      unfold AffineOp.transposeDot
      simp only [h1, Except.ok_bind', Bool.false_eq_true, if_false, h3]
    · rw [transpose_add, transpose_smul, add_mulVec, smul_mulVec]
      exact h2.trans h4

end

end Imate.Flat
