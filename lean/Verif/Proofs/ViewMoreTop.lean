import Verif.Spec.RoundTrips
import Verif.Proofs.ViewPart
/-!
The further Kokkos classes at the entry points.
-/

set_option autoImplicit false

namespace Ckpt

section
variable {T : Type} {cfg : Cfg} {K : Kind → Prop}

/-- Laws for each target give a round trip. -/
theorem roundTrips_of (hK : ∀ k, k ∈ builtinKinds → K k) {E : Nat → Elem T} {C : T → Codec T}
    (hE : ∀ {n m : Nat}, n ≤ m → Elem.Le (E n) (E m)) {n0 : Nat}
    (hL : ∀ y, Law (Scope.quiet K) cfg (E n0).ti (E n0).apply (C y)) {x : T} (hP : ∀ y, (C y).P x)
    {prior : T → Prop} (hpr : ∀ y, prior y → (C y).prior x y) {rel : T → T → Prop}
    (hrel : ∀ y w, (C y).rel x w → rel y w) : RoundTrips cfg E x prior rel := by
  obtain ⟨bs, h1, h2, h3, _⟩ := family_roundtrip hK hE (n0 := n0) (C := fun _ => C x) (hL x) (hP x) (ok := fun _ => False)
    (fun _ h => h.elim) (rel := fun _ _ => True) (fun _ _ => trivial)
  refine ⟨bs, h1, h2, h3, fun y rest hy => ?_⟩
  obtain ⟨bs', h1', _, _, h4⟩ := family_roundtrip hK hE (n0 := n0) (C := fun _ => C y) (hL y) (hP y) (ok := fun z => z = y)
    (fun z h => by rw [h]; exact hpr y hy) (rel := fun _ w => rel y w) (fun w h => hrel y w h)
  have : bs' = bs := by
    have := h1'.unique h1
    simpa using this
  subst this
  exact h4 y rest rfl

end

section
variable {T : Type} {cfg : Cfg} {e e' : Elem T} {fl : Failure}

theorem serDynElems_le (h : Elem.Or fl e e') (dims num : Nat) (contig : Bool) (v : View T) (st : List T × Ser) :
    Out.Or fl (serDynElems cfg e dims num contig v st) (serDynElems cfg e' dims num contig v st) := by
  unfold serDynElems
  split
  · unfold viewArray
    split
    · exact (serializeArray_le h _ _).bind fun _ => .refl _
    · exact .refl _
  · split
    · rw [traverseManual_eq, traverseManual_eq]
      exact runAll_le (fun idx st => viewElement_le h v _ st) _ _
    · exact .refl _

theorem dynRankElem_le (h : Elem.Or fl e e') (k : DynTI) (l : Layout) :
    Elem.Or fl (dynRankElem cfg k l e) (dynRankElem cfg k l e') := by
  refine ⟨rfl, dispatchEach_le fun s x => ?_⟩
  unfold serDynRank
  refine Out.Or.bind (.refl _) fun _ => Out.Or.bind (.refl _) fun _ => Out.Or.bind (.refl _) fun _ =>
    Out.Or.bind (.refl _) fun p => ?_
  dsimp only
  unfold serDynRest
  rw [zero_of_le h]
  split
  · exact .refl _
  · refine Out.Or.bind ?_ fun _ => .refl _
    unfold serDynBody
    refine Out.Or.bind (.refl _) fun _ => Out.Or.bind (.refl _) fun _ => ?_
    dsimp only
    split
    · exact (serDynElems_le h _ _ _ _ _).bind fun _ => .refl _
    · exact .refl _

theorem dynamicElement_le (h : Elem.Or fl e e') (i : Nat) (st : List T × Ser) :
    Out.Or fl (dynamicElement cfg e i st) (dynamicElement cfg e' i st) := by
  unfold dynamicElement
  rw [zero_of_le h]
  split
  · exact .refl _
  · split
    · exact (pipe_le h _ _).bind fun _ => .refl _
    · exact (pipe_le h _ _).bind fun _ => .refl _

theorem dynamicElem_le (h : Elem.Or fl e e') (k : DynamicTI) : Elem.Or fl (dynamicElem cfg k e) (dynamicElem cfg k e') := by
  refine ⟨rfl, dispatchEach_le fun s x => ?_⟩
  unfold serDynamic
  rw [zero_of_le h]
  refine Out.Or.bind (.refl _) fun _ => Out.Or.bind (.refl _) fun _ => Out.Or.bind (.refl _) fun _ =>
    Out.Or.bind (.refl _) fun _ => Out.Or.bind (.refl _) fun v => ?_
  refine Out.Or.bind ?_ fun _ => .refl _
  rw [forLoop_eq, forLoop_eq]
  exact runAll_le (fun i st => dynamicElement_le h i st) _ _

theorem contentsElem_le (h : Elem.Or fl e e') (ti : TI) (k : ViewTI) (ty : ViewTy) :
    Elem.Or fl (contentsElem cfg ti k ty e) (contentsElem cfg ti k ty e') := by
  refine ⟨rfl, dispatchEach_le fun s x => ?_⟩
  unfold serContentsOnly
  exact (pipe_le (viewElem_le h k ty false) _ _).bind fun _ => .refl _

end

section
variable {cfg : Cfg} {E R B V O : Type} {eE eE' : Elem E} {eR eR' : Elem R} {eB eB' : Elem B} {eV eV' : Elem V}
  {eO eO' : Elem O} {fl : Failure}

theorem graphElem_le (hE : Elem.Or fl eE eE') (hR : Elem.Or fl eR eR') (hB : Elem.Or fl eB eB') (g : GraphTy E R B) :
    Elem.Or fl (graphElem cfg g eE eR eB) (graphElem cfg g eE' eR' eB') := by
  refine ⟨rfl, dispatchEach_le fun s x => ?_⟩
  unfold serGraph
  exact (pipe_le (viewElem_le hE _ _ _) _ _).bind fun _ => (pipe_le (viewElem_le hR _ _ _) _ _).bind fun _ =>
    (pipe_le (viewElem_le hB _ _ _) _ _).bind fun _ => .refl _

theorem matrixElem_le (hO : Elem.Or fl eO eO') (hE : Elem.Or fl eE eE') (hR : Elem.Or fl eR eR') (hB : Elem.Or fl eB eB')
    (hV : Elem.Or fl eV eV') (ti : TI) (g : GraphTy E R B) (k : ViewTI) (ty : ViewTy) :
    Elem.Or fl (matrixElem cfg ti g k ty eO eE eR eB eV) (matrixElem cfg ti g k ty eO' eE' eR' eB' eV') := by
  refine ⟨?_, dispatchEach_le fun s x => ?_⟩
  · unfold matrixElem
    rw [zero_of_le hO]; rfl
  unfold serMatrix
  exact (pipe_le hO _ _).bind fun _ => (pipe_le (graphElem_le hE hR hB g) _ _).bind fun _ =>
    (pipe_le (viewElem_le hV _ _ _) _ _).bind fun _ => .refl _

end
end Ckpt
