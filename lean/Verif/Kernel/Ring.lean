import Verif.Kernel.Model

/-!
# Ring arithmetic

Helper lemmas: absolute positions versus wrapped offsets.
-/
namespace Verif.Kernel
open Verif

theorem mod_ne_of_close {n a b : Nat} (h1 : a < b) (h2 : b < a + n) : a % n ≠ b % n := by
  intro h
  have hd : n ∣ b - a := Nat.dvd_of_mod_eq_zero (Nat.sub_mod_eq_zero_of_mod_eq h.symm)
  have := Nat.le_of_dvd (by omega) hd
  omega

theorem offset_eq_mod {k n : Nat} : offset (2 ^ k) n = n % 2 ^ k := by
  simp [offset, Nat.and_two_pow_sub_one_eq_mod]

/-- Offset arithmetic on wrapped values. -/
theorem offset_mod_add {k a n : Nat} : offset (2 ^ k) (a % 2 ^ k + n) = (a + n) % 2 ^ k := by
  rw [offset_eq_mod, Nat.mod_add_mod]

/-- `n` ring bytes from absolute position `a`. -/
def ring (size : Nat) (buf : Nat → UInt8) (a n : Nat) : Bytes :=
  (List.range n).map fun i => buf ((a + i) % size)

@[simp] theorem ring_length {size buf a n} : (ring size buf a n).length = n := by simp [ring]

theorem ring_getElem? {size buf a n i} (h : i < n) :
    (ring size buf a n)[i]? = some (buf ((a + i) % size)) := by
  simp [ring, h]

theorem add_mod_small {size a i : Nat} (h : a % size + i < size) :
    (a + i) % size = a % size + i := by
  rw [← Nat.mod_add_mod, Nat.mod_eq_of_lt h]

theorem add_mod_wrap {size a i : Nat} (hs : 0 < size) (h1 : size ≤ a % size + i) (h2 : i ≤ size) :
    (a + i) % size = a % size + i - size := by
  have := Nat.mod_lt a hs
  rw [← Nat.mod_add_mod, Nat.mod_eq_sub_mod h1, Nat.mod_eq_of_lt (by omega)]

/-- A load split at the end of the ring reads consecutive absolute positions. -/
theorem load_split {size buf a n} (hs : 0 < size) (hn : n ≤ size) :
    load size buf (a % size) (min n (size - a % size)) =
      .ok (ring size buf a (min n (size - a % size))) ∧
    load size buf 0 (n - min n (size - a % size)) =
      .ok (ring size buf (a + min n (size - a % size)) (n - min n (size - a % size))) := by
  have hm := Nat.mod_lt a hs
  constructor
  · unfold load ring
    rw [if_pos (by omega)]
    congr 1
    apply List.map_congr_left
    intro i hi
    rw [List.mem_range] at hi
    rw [add_mod_small (by omega)]
  · unfold load ring
    rw [if_pos (by omega)]
    congr 1
    apply List.map_congr_left
    intro i hi
    rw [List.mem_range] at hi
    rw [Nat.add_assoc, add_mod_wrap hs (by omega) (by omega)]
    congr 1
    omega

theorem ring_append {size buf a n m} :
    ring size buf a n ++ ring size buf (a + n) m = ring size buf a (n + m) := by
  simp [ring, List.range_add, Nat.add_assoc]

/-- `a`'s image differs from the image of every position in `[w, w+n)`. -/
def Outside (size w n x : Nat) : Prop := ∀ j, j < n → x % size ≠ (w + j) % size

theorem outside_of_window {size w n x : Nat} (h1 : x < w) (h2 : w + n ≤ x + size) :
    Outside size w n x := by
  intro j hj
  exact mod_ne_of_close (by omega) (by omega)

/-- `buf'` is `buf` except possibly at the images of `[w, w+n)`. -/
def Touched (size : Nat) (buf buf' : Nat → UInt8) (w n : Nat) : Prop :=
  ∀ x, Outside size w n x → buf' (x % size) = buf (x % size)

/-- `buf'` is `buf` with `bs` written at absolute position `w`. -/
def Wrote (size : Nat) (buf buf' : Nat → UInt8) (w : Nat) (bs : Bytes) : Prop :=
  Touched size buf buf' w bs.length ∧
  ∀ j, j < bs.length → bs[j]? = some (buf' ((w + j) % size))

theorem Touched.refl {size buf w n} : Touched size buf buf w n := fun _ _ => rfl

theorem Touched.mono {size buf buf' w n m} (h : Touched size buf buf' w n) (hm : n ≤ m) :
    Touched size buf buf' w m := fun x hx => h x fun j hj => hx j (by omega)

theorem Touched.trans {size b0 b1 b2 w n m} (h1 : Touched size b0 b1 w n)
    (h2 : Touched size b1 b2 (w + n) m) : Touched size b0 b2 w (n + m) := by
  intro x hx
  rw [h2 x, h1 x]
  · intro j hj; exact hx j (by omega)
  · intro j hj
    have := hx (n + j) (by omega)
    rwa [← Nat.add_assoc] at this

theorem Wrote.trans {size b0 b1 b2 w xs ys} (h1 : Wrote size b0 b1 w xs)
    (h2 : Wrote size b1 b2 (w + xs.length) ys) (hs : xs.length + ys.length ≤ size) :
    Wrote size b0 b2 w (xs ++ ys) := by
  constructor
  · rw [List.length_append]; exact h1.1.trans h2.1
  · intro j hj
    rw [List.length_append] at hj
    by_cases hx : j < xs.length
    · rw [List.getElem?_append_left hx, h1.2 j hx, h2.1]
      exact outside_of_window (by omega) (by omega)
    · rw [List.getElem?_append_right (by omega), h2.2 (j - xs.length) (by omega)]
      congr 3; omega

theorem Wrote.nil {size buf w} : Wrote size buf buf w [] := ⟨Touched.refl, by simp⟩

/-- Two stores split at the end of the ring write consecutive absolute
positions. -/
theorem store_split {size buf w} {bs : Bytes} (hs : 0 < size) (hn : bs.length ≤ size) :
    ∃ b1, store size buf (w % size) (bs.take (min bs.length (size - w % size))) = .ok b1 ∧
      Wrote size buf b1 w (bs.take (min bs.length (size - w % size))) ∧
    ∃ b2, store size b1 0 (bs.drop (min bs.length (size - w % size))) = .ok b2 ∧
      Wrote size b1 b2 (w + min bs.length (size - w % size))
        (bs.drop (min bs.length (size - w % size))) := by
  have hm := Nat.mod_lt w hs
  generalize hlen : min bs.length (size - w % size) = len
  have hlt : (bs.take len).length = len := by rw [List.length_take]; omega
  have hld : (bs.drop len).length = bs.length - len := by rw [List.length_drop]
  refine ⟨_, by unfold store; rw [if_pos (by omega)], ⟨?_, ?_⟩, _,
    by unfold store; rw [if_pos (by omega)], ⟨?_, ?_⟩⟩
  · intro x hx
    dsimp only
    rw [if_neg]
    rintro ⟨ha, hb⟩
    have := hx (x % size - w % size) (by omega)
    apply this
    rw [add_mod_small (by have := Nat.mod_lt x hs; omega)]
    omega
  · intro j hj
    rw [hlt] at hj
    rw [add_mod_small (by omega), if_pos (by omega)]
    rw [List.getD_eq_getElem?_getD, show w % size + j - w % size = j by omega]
    rw [List.getElem?_eq_getElem (by omega)]; rfl
  · intro x hx
    dsimp only
    rw [if_neg]
    rintro ⟨_, hb⟩
    have hlen' : len = size - w % size := by omega
    have := hx (x % size) (by omega)
    apply this
    rw [Nat.add_assoc, add_mod_wrap hs (by omega) (by omega)]
    omega
  · intro j hj
    rw [hld] at hj
    have hlen' : len = size - w % size := by omega
    dsimp only
    rw [Nat.add_assoc, add_mod_wrap hs (by omega) (by omega), if_pos (by omega)]
    rw [List.getD_eq_getElem?_getD, show w % size + (len + j) - size - 0 = j by omega]
    rw [List.getElem?_eq_getElem (by omega)]; rfl

/-- kernel/ulogger-6.x.c:443-456 in absolute terms: a position `p` of the
window is between the old and the new write offset iff the new bytes reach it. -/
theorem isBetween_iff {size W len p : Nat} (hl : 0 < len) (hls : len < size)
    (h1 : W < p + size) (h2 : p ≤ W) :
    isBetween (W % size) ((W + len) % size) (p % size) = true ↔ p + size ≤ W + len := by
  have hs : 0 < size := by omega
  have hW := Nat.mod_lt W hs
  have hp := Nat.mod_lt p hs
  -- position of p relative to W
  have hpc : p % size + (W - p) = W % size ∨ p % size + (W - p) = W % size + size := by
    by_cases hc : p % size + (W - p) < size
    · left
      have := add_mod_small (a := p) (i := W - p) hc
      rw [show p + (W - p) = W by omega] at this; omega
    · right
      have := add_mod_wrap (a := p) (i := W - p) hs (by omega) (by omega)
      rw [show p + (W - p) = W by omega] at this; omega
  have hnc : ((W + len) % size = W % size + len ∧ W % size + len < size) ∨
      ((W + len) % size + size = W % size + len) := by
    by_cases hc : W % size + len < size
    · left; exact ⟨add_mod_small hc, hc⟩
    · right
      have := add_mod_wrap (a := W) (i := len) hs (by omega) (by omega)
      omega
  generalize W % size = o at *
  generalize p % size = c at *
  generalize (W + len) % size = m at *
  unfold isBetween
  split <;> simp only [decide_eq_true_eq] <;> omega

end Verif.Kernel
