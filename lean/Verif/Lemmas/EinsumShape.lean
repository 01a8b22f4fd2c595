import Verif.Model.Shapes

/-!
The shape check of `torch.einsum`: it succeeds exactly if the index names can be given sizes.
-/

set_option autoImplicit false

namespace AceTN

theorem bindIdx_sound (cs : List ℕ) (ds : Shape) (env env' : ℕ → Option ℕ) (h : bindIdx cs ds env = some env') :
    (∀ c d, env c = some d → env' c = some d) ∧ ds = cs.map (fun c => (env' c).getD 0) ∧ (∀ c ∈ cs, (env' c).isSome) ∧
      ∀ c, (env' c).isSome → (env c).isSome ∨ c ∈ cs := by
  induction cs generalizing ds env with
  | nil =>
    cases ds with
    | nil =>
      obtain rfl := Option.some.inj h
      simp
    | cons d ds => simp [bindIdx] at h
  | cons c cs ih =>
    cases ds with
    | nil => simp [bindIdx] at h
    | cons d ds =>
      unfold bindIdx at h
      cases hc : env c with
      | none =>
        rw [hc] at h
        obtain ⟨h1, h2, h3, h4⟩ := ih _ _ h
        have e : env' c = some d := h1 c d (if_pos rfl)
        refine ⟨fun a x hx => h1 a x ?_, ?_, ?_, ?_⟩
        · have hne : a ≠ c := fun e => by rw [e, hc] at hx; cases hx
          rw [if_neg hne, hx]
        · rw [List.map_cons, e, ← h2]
          rfl
        · intro a ha
          rcases List.mem_cons.1 ha with rfl | ha
          · rw [e]; rfl
          · exact h3 a ha
        · intro a ha
          rcases h4 a ha with h5 | h5
          · by_cases hac : a = c
            · exact Or.inr (by simp [hac])
            · rw [if_neg hac] at h5
              exact Or.inl h5
          · exact Or.inr (List.mem_cons_of_mem _ h5)
      | some d' =>
        rw [hc] at h
        dsimp only at h
        split_ifs at h with hd
        obtain ⟨h1, h2, h3, h4⟩ := ih _ _ h
        have e : env' c = some d := h1 c d (by rw [hc, hd])
        refine ⟨h1, ?_, ?_, ?_⟩
        · rw [List.map_cons, e, ← h2]
          rfl
        · intro a ha
          rcases List.mem_cons.1 ha with rfl | ha
          · rw [e]; rfl
          · exact h3 a ha
        · intro a ha
          exact (h4 a ha).imp_right (List.mem_cons_of_mem _)

theorem bindIdx_complete (σ : ℕ → ℕ) (cs : List ℕ) (env : ℕ → Option ℕ) (h : ∀ c d, env c = some d → d = σ c) :
    ∃ env', bindIdx cs (cs.map σ) env = some env' ∧ ∀ c d, env' c = some d → d = σ c := by
  induction cs generalizing env with
  | nil => exact ⟨env, rfl, h⟩
  | cons c cs ih =>
    rw [List.map_cons]
    unfold bindIdx
    cases hc : env c with
    | none =>
      refine ih _ fun a d ha => ?_
      split_ifs at ha with e
      · rw [← Option.some.inj ha, e]
      · exact h a d ha
    | some d' =>
      dsimp only
      rw [if_pos (h c d' hc).symm]
      exact ih env h

theorem bindAll_sound (cs : List (List ℕ)) (ss : List Shape) (env env' : ℕ → Option ℕ) (h : bindAll cs ss env = some env') :
    (∀ c d, env c = some d → env' c = some d) ∧ ss = cs.map (List.map fun c => (env' c).getD 0) ∧
      ∀ c, (env' c).isSome → (env c).isSome ∨ ∃ l ∈ cs, c ∈ l := by
  induction cs generalizing ss env with
  | nil =>
    cases ss with
    | nil =>
      obtain rfl := Option.some.inj h
      simp
    | cons s ss => simp [bindAll] at h
  | cons c cs ih =>
    cases ss with
    | nil => simp [bindAll] at h
    | cons s ss =>
      unfold bindAll at h
      obtain ⟨e1, he, h⟩ := Option.bind_eq_some_iff.1 h
      obtain ⟨a1, a2, a3, a4⟩ := bindIdx_sound _ _ _ _ he
      obtain ⟨b1, b2, b3⟩ := ih _ _ h
      refine ⟨fun x d hx => b1 x d (a1 x d hx), ?_, fun x hx => ?_⟩
      · rw [List.map_cons, ← b2, a2]
        refine congrArg (· :: ss) (List.map_congr_left fun x hx => ?_)
        obtain ⟨d, hd⟩ := Option.isSome_iff_exists.1 (a3 x hx)
        rw [hd, b1 x d hd]
      · rcases b3 x hx with h5 | ⟨l, hl, hx'⟩
        · exact (a4 x h5).imp_right fun h6 => ⟨c, by simp, h6⟩
        · exact Or.inr ⟨l, List.mem_cons_of_mem _ hl, hx'⟩

theorem bindAll_bound (cs : List (List ℕ)) (ss : List Shape) (env env' : ℕ → Option ℕ) (h : bindAll cs ss env = some env') (c : ℕ) (l : List ℕ)
    (hl : l ∈ cs) (hc : c ∈ l) : (env' c).isSome := by
  induction cs generalizing ss env with
  | nil => cases hl
  | cons k cs ih =>
    cases ss with
    | nil => simp [bindAll] at h
    | cons s ss =>
      unfold bindAll at h
      obtain ⟨e1, he, h'⟩ := Option.bind_eq_some_iff.1 h
      rcases List.mem_cons.1 hl with rfl | hl
      · obtain ⟨d, hd⟩ := Option.isSome_iff_exists.1 ((bindIdx_sound _ _ _ _ he).2.2.1 c hc)
        rw [(bindAll_sound _ _ _ _ h').1 c d hd]
        rfl
      · exact ih _ _ h' hl

theorem bindAll_complete (σ : ℕ → ℕ) (cs : List (List ℕ)) (env : ℕ → Option ℕ) (h : ∀ c d, env c = some d → d = σ c) :
    ∃ env', bindAll cs (cs.map (List.map σ)) env = some env' ∧ ∀ c d, env' c = some d → d = σ c := by
  induction cs generalizing env with
  | nil => exact ⟨env, rfl, h⟩
  | cons c cs ih =>
    obtain ⟨e1, h1, h2⟩ := bindIdx_complete σ c env h
    obtain ⟨e2, h3, h4⟩ := ih e1 h2
    exact ⟨e2, by rw [List.map_cons, bindAll, h1, Option.bind_some, h3], h4⟩

theorem outShape_eq (env : ℕ → Option ℕ) (cs : List ℕ) (out : Shape) :
    outShape env cs = some out ↔ out = cs.map (fun c => (env c).getD 0) ∧ ∀ c ∈ cs, (env c).isSome := by
  induction cs generalizing out with
  | nil => exact ⟨fun h => ⟨(Option.some.inj h).symm, fun _ hc => absurd hc List.not_mem_nil⟩, fun h => congrArg some h.1.symm⟩
  | cons c cs ih =>
    unfold outShape
    cases hc : env c with
    | none => simp [hc]
    | some d =>
      rw [Option.bind_some, Option.map_eq_some_iff]
      constructor
      · rintro ⟨t, ht, rfl⟩
        obtain ⟨h1, h2⟩ := (ih t).1 ht
        exact ⟨by rw [List.map_cons, hc, ← h1]; rfl, by simpa [hc] using h2⟩
      · rintro ⟨h1, h2⟩
        refine ⟨_, (ih _).2 ⟨rfl, fun x hx => h2 x (List.mem_cons_of_mem _ hx)⟩, ?_⟩
        rw [h1, List.map_cons, hc]
        rfl

end AceTN
