import Mathlib.Data.List.Basic
import Mathlib.Data.Int.Notation

/-!
# Hashes of calibration products

Model of `Image.get_hash` (data.py 586-599); that of the detector parameters is in `Verif.Setup.DetParams`. Python's
`hash` is any function of a salt, chosen when the process starts, and the bytes.
-/

namespace Corgi.Hash

/-- An array: its shape and its bytes. -/
structure Arr where
  shape : List ℕ
  bytes : List ℕ

/-- An image: the three arrays that are hashed, and everything else (headers and further extensions). -/
structure Img (β : Type) where
  data : Arr
  err : Arr
  dq : Arr
  other : β

/-- `Image.get_hash`: `hash(data_bytes + err_bytes + dq_bytes)`. -/
def imageHash {σ β : Type} (hash : σ → List ℕ → ℤ) (salt : σ) (i : Img β) : ℤ :=
  hash salt (i.data.bytes ++ i.err.bytes ++ i.dq.bytes)

/-- **C130** Equal arrays have equal hashes within one process, and for images of the same shapes different arrays
give `hash` different bytes. -/
theorem C130_image_partial {β : Type} (i j : Img β) (h1 : i.data.bytes.length = j.data.bytes.length)
    (h2 : i.err.bytes.length = j.err.bytes.length) :
    i.data.bytes ++ i.err.bytes ++ i.dq.bytes = j.data.bytes ++ j.err.bytes ++ j.dq.bytes ↔
      i.data.bytes = j.data.bytes ∧ i.err.bytes = j.err.bytes ∧ i.dq.bytes = j.dq.bytes := by
  constructor
  · intro h
    rw [List.append_assoc, List.append_assoc] at h
    obtain ⟨a, b⟩ := List.append_inj h h1
    obtain ⟨c, d⟩ := List.append_inj b h2
    exact ⟨a, c, d⟩
  · rintro ⟨a, b, c⟩
    rw [a, b, c]

/-- **C130** With a hash function without collisions, images of the same shapes have the same hash exactly if
their arrays are the same. -/
theorem C130_image_iff {σ β : Type} {hash : σ → List ℕ → ℤ} (salt : σ) (hh : Function.Injective (hash salt))
    (i j : Img β) (h1 : i.data.bytes.length = j.data.bytes.length)
    (h2 : i.err.bytes.length = j.err.bytes.length) :
    imageHash hash salt i = imageHash hash salt j ↔
      i.data.bytes = j.data.bytes ∧ i.err.bytes = j.err.bytes ∧ i.dq.bytes = j.dq.bytes := by
  unfold imageHash
  rw [hh.eq_iff, C130_image_partial i j h1 h2]

/-- **C130** Violated: whatever the hash function, headers and further extensions (for example the core throughput
values or the photon transfer curve) and the shapes of the arrays do not count. -/
theorem C130_violated_other {σ β : Type} (hash : σ → List ℕ → ℤ) (salt : σ) (i j : Img β)
    (h1 : i.data.bytes = j.data.bytes) (h2 : i.err.bytes = j.err.bytes) (h3 : i.dq.bytes = j.dq.bytes) :
    imageHash hash salt i = imageHash hash salt j := by
  unfold imageHash
  rw [h1, h2, h3]

/-- **C130** Violated: hashes of the same contents from two processes agree only if the two salts happen to treat
these contents alike; a hash in the database or in a HISTORY entry cannot be checked later. -/
theorem C130_violated_salt {σ β : Type} (hash : σ → List ℕ → ℤ) (i : Img β) {s t : σ}
    (h : hash s (i.data.bytes ++ i.err.bytes ++ i.dq.bytes) ≠ hash t (i.data.bytes ++ i.err.bytes ++ i.dq.bytes)) :
    imageHash hash s i ≠ imageHash hash t i := h

/-- A salted hash for which the salts matter. -/
example : imageHash (fun (s : ℤ) l => s + l.sum) 0 (⟨⟨[1], [7]⟩, ⟨[1, 1], [0]⟩, ⟨[1], [0]⟩, ()⟩ : Img Unit) ≠
    imageHash (fun (s : ℤ) l => s + l.sum) 1 ⟨⟨[1], [7]⟩, ⟨[1, 1], [0]⟩, ⟨[1], [0]⟩, ()⟩ := by
  decide

end Corgi.Hash
