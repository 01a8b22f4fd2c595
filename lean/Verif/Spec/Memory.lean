import Verif.Model.NativeAls

/-! What it means for a contiguous buffer to hold a tensor: the elements lie in row-major order. -/

set_option autoImplicit false

namespace AceTN.Native.Spec

variable {𝕜 : Type}

/-- A buffer without axes holds a number. -/
def Holds0 (b : Buf 𝕜) (x : 𝕜) : Prop := b.shape = [] ∧ b.mem 0 = x

/-- A buffer with three axes holds `T`. -/
def Holds3 {n0 n1 n2 : ℕ} (b : Buf 𝕜) (T : Fin n0 → Fin n1 → Fin n2 → 𝕜) : Prop :=
  b.shape = [n0, n1, n2] ∧ ∀ (i : Fin n0) (j : Fin n1) (k : Fin n2), b.mem ((i * n1 + j) * n2 + k) = T i j k

/-- A buffer with four axes holds `T`. -/
def Holds4 {n0 n1 n2 n3 : ℕ} (b : Buf 𝕜) (T : Fin n0 → Fin n1 → Fin n2 → Fin n3 → 𝕜) : Prop :=
  b.shape = [n0, n1, n2, n3] ∧ ∀ (i : Fin n0) (j : Fin n1) (k : Fin n2) (l : Fin n3),
    b.mem (((i * n1 + j) * n2 + k) * n3 + l) = T i j k l

/-- A buffer with five axes holds `T`. -/
def Holds5 {n0 n1 n2 n3 n4 : ℕ} (b : Buf 𝕜) (T : Fin n0 → Fin n1 → Fin n2 → Fin n3 → Fin n4 → 𝕜) : Prop :=
  b.shape = [n0, n1, n2, n3, n4] ∧ ∀ (i : Fin n0) (j : Fin n1) (k : Fin n2) (l : Fin n3) (m : Fin n4),
    b.mem ((((i * n1 + j) * n2 + k) * n3 + l) * n4 + m) = T i j k l m

end AceTN.Native.Spec
