import Verif.Lemmas.FieldMap

/-!
Boundary moves and density matrices commute with a conversion of the dtype.
-/

set_option autoImplicit false
set_option linter.unusedSectionVars false

namespace AceTN

open Spec Matrix

/-! ### Moves for any operations -/

section ops

variable {T T' : Type}

/-- A map of tensors that commutes with all operations of a move. -/
structure OpsHom (f : T → T') (o : Ops T) (o' : Ops T') : Prop where
  permute : ∀ k a, o'.permute k (f a) = f (o.permute k a)
  quarter : ∀ a b c d, o'.quarter (f a) (f b) (f c) (f d) = f (o.quarter a b c d)
  half : ∀ key chi a b, o'.half key chi (f a) (f b) = Prod.map f f (o.half key chi a b)
  full : ∀ key chi a b c d, o'.full key chi (f a) (f b) (f c) (f d) = Prod.map f f (o.full key chi a b c d)
  cj1 : ∀ a b c, o'.cj1 (f a) (f b) (f c) = f (o.cj1 a b c)
  cj2 : ∀ a b c, o'.cj2 (f a) (f b) (f c) = f (o.cj2 a b c)
  ej : ∀ a b c d, o'.ej (f a) (f b) (f c) (f d) = f (o.ej a b c d)

variable {f : T → T'} {o : Ops T} {o' : Ops T'} (h : OpsHom f o o')

theorem mapNet_setB (net : Net T) (s : Site) (sl : Slot) (v : T) : (mapNet f net).setB s sl (f v) = mapNet f (net.setB s sl v) := by
  unfold mapNet Net.setB
  congr 1
  funext s' sl'
  exact (apply_ite f _ _ _).symm

include h

theorem OpsHom.quarterTensor (net : Net T) (s : Site) (k : ℕ) : quarterTensor o' (mapNet f net) s k = f (quarterTensor o net s k) := by
  unfold AceTN.quarterTensor
  rw [← h.quarter, ← h.permute]
  rfl

theorem OpsHom.calcProjectors (pk : ProjKind) (net : Net T) (s1 s2 s3 s4 : Site) (k : ℕ) :
    calcProjectors o' pk (mapNet f net) s1 s2 s3 s4 k = Prod.map f f (calcProjectors o pk net s1 s2 s3 s4 k) := by
  cases pk
  · unfold AceTN.calcProjectors
    dsimp only
    rw [h.quarterTensor, h.quarterTensor, h.half]
    rfl
  · unfold AceTN.calcProjectors
    dsimp only
    rw [h.quarterTensor, h.quarterTensor, h.quarterTensor, h.quarterTensor, h.full]
    rfl

theorem OpsHom.renormalizeBoundary (net : Net T) (d : ProjDict T) (d' : ProjDict T') (hd : ∀ i, d' i = (d i).map (Prod.map f f))
    (s1 s2 : Site) (i j k : ℕ) : renormalizeBoundary o' (mapNet f net) d' s1 s2 i j k =
      (renormalizeBoundary o net d s1 s2 i j k).map (mapNet f) := by
  unfold AceTN.renormalizeBoundary ProjDict.item
  rw [hd i, hd j]
  cases d i with
  | none => rfl
  | some p =>
    cases d j with
    | none => rfl
    | some q =>
      show Except.ok _ = Except.ok _
      dsimp only [Option.map, Prod.map]
      rw [show (mapNet f net).B s1 (.C ((3 + k) % 4)) = f (net.B s1 (.C ((3 + k) % 4))) from rfl,
        show (mapNet f net).B s1 (.E ((2 + k) % 4)) = f (net.B s1 (.E ((2 + k) % 4))) from rfl, h.cj1, mapNet_setB]
      generalize net.setB s2 (.C ((3 + k) % 4)) _ = net1
      rw [show (mapNet f net1).B s1 (.C k) = f (net1.B s1 (.C k)) from rfl,
        show (mapNet f net1).B s1 (.E k) = f (net1.B s1 (.E k)) from rfl, h.cj2, mapNet_setB]
      generalize net1.setB s2 (.C k) _ = net2
      rw [show (mapNet f net2).B s1 (.E ((3 + k) % 4)) = f (net2.B s1 (.E ((3 + k) % 4))) from rfl,
        show (mapNet f net2).A s1 = f (net2.A s1) from rfl, h.permute, h.ej, mapNet_setB]

theorem OpsHom.renormLoop (d : ProjDict T) (d' : ProjDict T') (hd : ∀ i, d' i = (d i).map (Prod.map f f)) (s1 s2 : ℕ → Site)
    (jOf : ℕ → ℕ) (k : ℕ) (is : List ℕ) (net : Net T) :
    renormLoop o' d' s1 s2 jOf k is (mapNet f net) = (renormLoop o d s1 s2 jOf k is net).map (mapNet f) := by
  induction is generalizing net with
  | nil => rfl
  | cons i is ih =>
    unfold AceTN.renormLoop
    rw [h.renormalizeBoundary net d d' hd]
    cases AceTN.renormalizeBoundary o net d (s1 i) (s2 i) i (jOf i) k with
    | error e => rfl
    | ok net' => exact ih net'

omit h in
theorem fillProj_map (n : ℕ) (g : ℕ → T × T) (g' : ℕ → T' × T') (hg : ∀ i, g' i = Prod.map f f (g i)) (i : ℕ) :
    fillProj n g' i = (fillProj n g i).map (Prod.map f f) := by
  unfold fillProj
  split
  · rw [hg]; rfl
  · rfl

/-- A move on converted tensors. -/
theorem OpsHom.run (pk : ProjKind) (net : Net T) (m : Move) : m.run o' pk (mapNet f net) = (m.run o pk net).map (mapNet f) := by
  cases m with
  | left xi => exact h.renormLoop _ _ (fillProj_map _ _ _ fun i => h.calcProjectors pk net _ _ _ _ _) _ _ _ _ _ net
  | up yi => exact h.renormLoop _ _ (fillProj_map _ _ _ fun i => h.calcProjectors pk net _ _ _ _ _) _ _ _ _ _ net
  | right xi => exact h.renormLoop _ _ (fillProj_map _ _ _ fun i => h.calcProjectors pk net _ _ _ _ _) _ _ _ _ _ net
  | down yi => exact h.renormLoop _ _ (fillProj_map _ _ _ fun i => h.calcProjectors pk net _ _ _ _ _) _ _ _ _ _ net

end ops

/-! ### Numerical tensors -/

section num

variable {𝕜 𝕜' : Type} [RCLike 𝕜] [RCLike 𝕜'] (φ : 𝕜 →⋆ₐ[ℝ] 𝕜')
variable {B P : Type} [Fintype B] [Fintype P] [DecidableEq B]

theorem hom_as2 {m n : ℕ} (m' n' : ℕ) (c : Fin m → Fin n → 𝕜) :
    as2 m' n' (fun i j => φ (c i j)) = fun i j => φ (as2 m' n' c i j) := by
  funext i j
  unfold as2 ent2
  split
  · rfl
  · exact (map_zero φ).symm

theorem hom_as4 {m n : ℕ} (m' n' : ℕ) (e : Fin m → Fin n → B → B → 𝕜) :
    as4 m' n' (fun i j l l' => φ (e i j l l')) = fun i j l l' => φ (as4 m' n' e i j l l') := by
  funext i j l l'
  unfold as4 ent4
  split
  · rfl
  · exact (map_zero φ).symm

theorem hom_asP {m n : ℕ} (m' n' : ℕ) (p : Fin m → B → B → Fin n → 𝕜) :
    asP m' n' (fun i l l' j => φ (p i l l' j)) = fun i l l' j => φ (asP m' n' p i l l' j) := by
  funext i l l' j
  unfold asP entP
  split
  · rfl
  · exact (map_zero φ).symm

theorem hom_asQ {m n : ℕ} (m' n' : ℕ) (q : Matrix (Fin m × B × B) (Fin n × B × B) 𝕜) :
    asQ m' n' (q.map φ) = (asQ m' n' q).map φ := by
  ext i j
  unfold asQ
  simp only [of_apply, map_apply]
  split
  · rfl
  · exact (map_zero φ).symm

theorem hom_norm2 {a b : Type} [Fintype a] [Fintype b] (c : a → b → 𝕜) : norm2 (fun i j => φ (c i j)) = norm2 c := by
  unfold norm2
  simp only [hom_norm]

theorem hom_norm4 {a b c d : Type} [Fintype a] [Fintype b] [Fintype c] [Fintype d] (t : a → b → c → d → 𝕜) :
    norm4 (fun i j k l => φ (t i j k l)) = norm4 t := by
  unfold norm4
  simp only [hom_norm]

theorem hom_normalise2 {a b : Type} [Fintype a] [Fintype b] (c : a → b → 𝕜) :
    normalise2 (fun i j => φ (c i j)) = fun i j => φ (normalise2 c i j) := by
  funext i j
  unfold normalise2
  rw [hom_norm2, map_div₀, hom_real]

theorem hom_normalise4 {a b c d : Type} [Fintype a] [Fintype b] [Fintype c] [Fintype d] (t : a → b → c → d → 𝕜) :
    normalise4 (fun i j k l => φ (t i j k l)) = fun i j k l => φ (normalise4 t i j k l) := by
  funext i j k l
  unfold normalise4
  rw [hom_norm4, map_div₀, hom_real]

section renormalize

variable {xa xb xc L U R D Z Z' : Type} [Fintype xa] [Fintype xb] [Fintype xc] [Fintype L] [Fintype U] [Fintype R] [Fintype D]
  [Fintype Z] [Fintype Z']

theorem hom_cj1 (ci : xb → xc → 𝕜) (ei : xa → xb → L → L → 𝕜) (proj : xc → L → L → Z → 𝕜) :
    renormalizeCj1 (fun i j => φ (ci i j)) (fun i j l l' => φ (ei i j l l')) (fun i l l' j => φ (proj i l l' j)) =
      fun i j => φ (renormalizeCj1 ci ei proj i j) := by
  unfold renormalizeCj1
  dsimp only
  rw [← hom_normalise2]
  simp only [map_sum, map_mul]

theorem hom_cj2 (ci : xa → xb → 𝕜) (ei : xb → xc → R → R → 𝕜) (proj : xa → R → R → Z → 𝕜) :
    renormalizeCj2 (fun i j => φ (ci i j)) (fun i j l l' => φ (ei i j l l')) (fun i l l' j => φ (proj i l l' j)) =
      fun i j => φ (renormalizeCj2 ci ei proj i j) := by
  unfold renormalizeCj2
  dsimp only
  rw [← hom_normalise2]
  simp only [map_sum, map_mul]

theorem hom_ej (ei : xa → xb → L → L → 𝕜) (ai : L → U → R → D → P → 𝕜) (proj2 : xa → D → D → Z' → 𝕜) (proj1 : xb → U → U → Z → 𝕜) :
    renormalizeEj (fun i j l l' => φ (ei i j l l')) (fun l u r d p => φ (ai l u r d p)) (fun i l l' j => φ (proj2 i l l' j))
      (fun i l l' j => φ (proj1 i l l' j)) = fun i j l l' => φ (renormalizeEj ei ai proj2 proj1 i j l l') := by
  unfold renormalizeEj
  dsimp only
  rw [← hom_normalise4]
  simp only [map_sum, map_mul, Pi.star_apply, map_star]

end renormalize

omit [Fintype B] [Fintype P] [DecidableEq B] in
theorem hom_bondPermute (k : ℤ) (a : ATensor B P 𝕜) :
    bondPermute k (fun l u r d p => φ (a l u r d p)) = fun l u r d p => φ (bondPermute k a l u r d p) := rfl

variable {st : ProjSettings 𝕜} {st' : ProjSettings 𝕜'} (h : SameSettings φ st st')
include h

/-- The operations of a move commute with a conversion of the dtype. -/
theorem numOps_hom (ω : Draws B 𝕜) : OpsHom (mapTen φ) (numOps (P := P) st ω) (numOps st' (mapDraws φ ω)) where
  permute k a := by cases a <;> rfl
  quarter a b c d := by
    cases a with
    | site a => cases b with
      | corner xa xb c0 => cases c with
        | edge xe xa' e1 => cases d with
          | edge xb' xc e2 =>
            dsimp only [mapTen, numOps]
            split
            · dsimp only [mapTen]
              rw [hom_as4, hom_as4, hom_quarterCore, hom_maxNormalise]
            · rfl
          | _ => rfl
        | _ => rfl
      | _ => rfl
    | _ => rfl
  half key chi a b := by
    cases a with
    | quarter m x Q1 => cases b with
      | quarter x' n Q4 =>
        dsimp only [mapTen, numOps]
        split
        · rw [h.fullRank, h.cutoff, h.oversampling, h.niter, hom_asQ]
          have key : (if st.fullRank = true then halfFullRank st'.la st.cutoff chi (Q1.map φ) ((asQ x n Q4).map φ)
              else halfRsvd st'.la st.cutoff chi st.oversampling st.niter (Q1.map φ) ((asQ x n Q4).map φ)
                (mapDraws φ ω key m n (chi + st.oversampling))) =
              mapPair φ (if st.fullRank = true then halfFullRank st.la st.cutoff chi Q1 (asQ x n Q4)
              else halfRsvd st.la st.cutoff chi st.oversampling st.niter Q1 (asQ x n Q4) (ω key m n (chi + st.oversampling))) := by
            split
            · exact hom_halfFullRank φ h.la _ _ _ _
            · exact hom_halfRsvd φ h.la _ _ _ _ _ _ _
          rw [key]
          rfl
        · rfl
      | _ => rfl
    | _ => rfl
  full key chi a b c d := by
    cases a with
    | quarter k1 x Q1 => cases b with
      | quarter m k1' Q2 => cases c with
        | quarter k3 n Q3 => cases d with
          | quarter x' k3' Q4 =>
            dsimp only [mapTen, numOps]
            split
            · rw [h.fullRank, h.cutoff, h.oversampling, h.niter, hom_asQ, hom_asQ]
              have key : (if st.fullRank = true then fullFullRank st'.la st.cutoff chi (Q1.map φ) ((asQ m k1 Q2).map φ) (Q3.map φ)
                    ((asQ x k3 Q4).map φ)
                  else fullRsvd st'.la st.cutoff chi st.oversampling st.niter (Q1.map φ) ((asQ m k1 Q2).map φ) (Q3.map φ)
                    ((asQ x k3 Q4).map φ) (mapDraws φ ω key m n (chi + st.oversampling))) =
                  mapPair φ (if st.fullRank = true then fullFullRank st.la st.cutoff chi Q1 (asQ m k1 Q2) Q3 (asQ x k3 Q4)
                  else fullRsvd st.la st.cutoff chi st.oversampling st.niter Q1 (asQ m k1 Q2) Q3 (asQ x k3 Q4)
                    (ω key m n (chi + st.oversampling))) := by
                split
                · exact hom_fullFullRank φ h.la _ _ _ _ _ _
                · exact hom_fullRsvd φ h.la _ _ _ _ _ _ _ _ _
              rw [key]
              rfl
            · rfl
          | _ => rfl
        | _ => rfl
      | _ => rfl
    | _ => rfl
  cj1 a b c := by
    cases a with
    | corner xb xc c0 => cases b with
      | edge xa xb' e => cases c with
        | proj xc' z p =>
          dsimp only [mapTen, numOps]
          split
          · dsimp only [mapTen]
            rw [hom_as4, hom_asP, hom_cj1]
          · rfl
        | _ => rfl
      | _ => rfl
    | _ => rfl
  cj2 a b c := by
    cases a with
    | corner xb xc c0 => cases b with
      | edge xa xb' e => cases c with
        | proj xc' z p =>
          dsimp only [mapTen, numOps]
          split
          · dsimp only [mapTen]
            rw [hom_as4, hom_asP, hom_cj2]
          · rfl
        | _ => rfl
      | _ => rfl
    | _ => rfl
  ej a b c d := by
    cases a with
    | edge xa xb e => cases b with
      | site a => cases c with
        | proj xa' z' p2 => cases d with
          | proj xb' z p1 =>
            dsimp only [mapTen, numOps]
            split
            · dsimp only [mapTen]
              rw [hom_asP, hom_asP, hom_ej]
            · rfl
          | _ => rfl
        | _ => rfl
      | _ => rfl
    | _ => rfl

theorem hom_runDrawn (pk : ProjKind) (ω : ℕ → Draws B 𝕜) (t : ℕ) (ms : List Move) (net : Net (Ten B P 𝕜)) :
    runDrawn st' pk (fun i => mapDraws φ (ω i)) t ms (mapNet (mapTen φ) net) = (runDrawn st pk ω t ms net).map (mapNet (mapTen φ)) := by
  induction ms generalizing t net with
  | nil => rfl
  | cons m ms ih =>
    unfold runDrawn
    rw [(numOps_hom φ h (ω t)).run]
    cases m.run (numOps st (ω t)) pk net with
    | error e => rfl
    | ok net' => exact ih (t + 1) net'

theorem hom_ctmrgDrawn (pk : ProjKind) (ω : ℕ → Draws B 𝕜) (t n : ℕ) (net : Net (Ten B P 𝕜)) :
    ctmrgDrawn st' pk (fun i => mapDraws φ (ω i)) t n (mapNet (mapTen φ) net) =
      (ctmrgDrawn st pk ω t n net).map (mapNet (mapTen φ)) := by
  induction n generalizing t net with
  | zero => rfl
  | succ n ih =>
    unfold ctmrgDrawn
    rw [hom_runDrawn φ h]
    show (Except.map _ (runDrawn st pk ω t (sweepMoves net.nx net.ny) net)).bind _ = _
    cases runDrawn st pk ω t (sweepMoves net.nx net.ny) net with
    | error e => rfl
    | ok net' => exact ih _ net'

end num

end AceTN
