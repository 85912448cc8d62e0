import Verif.Spec.Encoding
/-
Proofs about decoders: chunks, UTF-8, Latin-1.
-/
namespace KompareDiff2
open Spec

theorem Codec.decode_append (c : Codec) (st : c.State) (a b : List UInt8) :
    c.decode st (a ++ b) = ((c.decode (c.decode st a).1 b).1, (c.decode st a).2 ++ (c.decode (c.decode st a).1 b).2) := by
  induction a generalizing st with
  | nil => simp [Codec.decode]
  | cons x a ih => simp [Codec.decode, ih, List.append_assoc]

theorem readLoop_eq (d : Decoder) (bytes : List UInt8) (t : Str) :
    readLoop d bytes t = (⟨d.codec, (d.codec.decode d.state bytes).1⟩, t ++ (d.codec.decode d.state bytes).2) := by
  induction hn : bytes.length using Nat.strongRecOn generalizing d bytes t with
  | ind n ih =>
    rw [readLoop]
    split
    · rename_i h0
      have : bytes = [] := List.length_eq_zero_iff.1 h0
      subst this; simp [Codec.decode]
    · rw [ih (bytes.drop 4096).length (by rw [List.length_drop]; omega) _ _ _ rfl]
      have h := d.codec.decode_append d.state (bytes.take 4096) (bytes.drop 4096)
      rw [List.take_append_drop] at h
      rw [h]
      simp [List.append_assoc]

theorem byte_toNat {n : Nat} (h : n < 256) : (UInt8.ofNat n).toNat = n := by
  rw [UInt8.toNat_ofNat']; exact Nat.mod_eq_of_lt h

theorem utf8_cont (st : Bool) (n acc least k : Nat) (hk : k < 64) :
    utf8Step ⟨st, n + 2, acc, least⟩ (UInt8.ofNat (0x80 + k)) = (⟨st, n + 1, acc * 64 + k, least⟩, []) := by
  unfold utf8Step
  dsimp only
  rw [byte_toNat (by omega), if_pos (by omega)]
  have : 0x80 + k - 0x80 = k := by omega
  rw [this]

theorem utf8_last (st : Bool) (acc least k : Nat) (hk : k < 64) (hl : least ≤ acc * 64 + k)
    (hv : acc * 64 + k < 0xD800 ∨ (0xDFFF < acc * 64 + k ∧ acc * 64 + k < 0x110000)) :
    utf8Step ⟨st, 1, acc, least⟩ (UInt8.ofNat (0x80 + k)) = utf8Emit st (Char.ofNat (acc * 64 + k)) := by
  unfold utf8Step
  dsimp only
  rw [byte_toNat (by omega), if_pos (by omega)]
  have : 0x80 + k - 0x80 = k := by omega
  rw [this, if_pos ⟨hl, hv⟩]

theorem utf8_lead1 (st : Bool) (v : Nat) (h : v < 0x80) : utf8Step ⟨st, 0, 0, 0⟩ (UInt8.ofNat v) = utf8Emit st (Char.ofNat v) := by
  unfold utf8Step utf8Lead
  dsimp only
  rw [byte_toNat (by omega), if_pos h]

theorem utf8_lead2 (st : Bool) (k : Nat) (h1 : 2 ≤ k) (h : k < 32) :
    utf8Step ⟨st, 0, 0, 0⟩ (UInt8.ofNat (0xC0 + k)) = (⟨st, 1, k, 0x80⟩, []) := by
  unfold utf8Step utf8Lead
  dsimp only
  rw [byte_toNat (by omega), if_neg (by omega), if_neg (by omega), if_pos (by omega)]
  have : 0xC0 + k - 0xC0 = k := by omega
  rw [this]

theorem utf8_lead3 (st : Bool) (k : Nat) (h : k < 16) :
    utf8Step ⟨st, 0, 0, 0⟩ (UInt8.ofNat (0xE0 + k)) = (⟨st, 2, k, 0x800⟩, []) := by
  unfold utf8Step utf8Lead
  dsimp only
  rw [byte_toNat (by omega), if_neg (by omega), if_neg (by omega), if_neg (by omega), if_pos (by omega)]
  have : 0xE0 + k - 0xE0 = k := by omega
  rw [this]

theorem utf8_lead4 (st : Bool) (k : Nat) (h : k < 5) :
    utf8Step ⟨st, 0, 0, 0⟩ (UInt8.ofNat (0xF0 + k)) = (⟨st, 3, k, 0x10000⟩, []) := by
  unfold utf8Step utf8Lead
  dsimp only
  rw [byte_toNat (by omega), if_neg (by omega), if_neg (by omega), if_neg (by omega), if_neg (by omega), if_pos (by omega)]
  have : 0xF0 + k - 0xF0 = k := by omega
  rw [this]

theorem utf8_decode_cons (st : Utf8State) (b : UInt8) (bs : List UInt8) :
    utf8.decode st (b :: bs) = ((utf8.decode (utf8Step st b).1 bs).1, (utf8Step st b).2 ++ (utf8.decode (utf8Step st b).1 bs).2) := rfl

theorem utf8_char (st : Bool) (c : Char) (bs : List UInt8) :
    utf8.decode (⟨st, 0, 0, 0⟩ : Utf8State) (utf8Char c ++ bs) =
      ((utf8.decode (⟨false, 0, 0, 0⟩ : Utf8State) bs).1,
        (if st && c.toNat == 0xFEFF then [] else [c]) ++ (utf8.decode (⟨false, 0, 0, 0⟩ : Utf8State) bs).2) := by
  have hv := c.valid
  have hv : c.toNat < 0xd800 ∨ (0xdfff < c.toNat ∧ c.toNat < 0x110000) := hv
  have hc : Char.ofNat c.toNat = c := Char.ofNat_toNat c
  have he : utf8Emit st c = (⟨false, 0, 0, 0⟩, if st && c.toNat == 0xFEFF then [] else [c]) := rfl
  unfold utf8Char
  dsimp only
  by_cases h1 : c.toNat < 0x80
  · rw [if_pos h1, List.singleton_append, utf8_decode_cons, utf8_lead1 st _ h1, hc, he]
  rw [if_neg h1]
  by_cases h2 : c.toNat < 0x800
  · rw [if_pos h2, List.cons_append, List.singleton_append, utf8_decode_cons, utf8_lead2 st _ (by omega) (by omega), utf8_decode_cons]
    have e : c.toNat / 64 * 64 + c.toNat % 64 = c.toNat := by omega
    dsimp only
    rw [utf8_last st _ _ _ (by omega) (by omega) (by omega), e, hc, he]
    rfl
  rw [if_neg h2]
  by_cases h3 : c.toNat < 0x10000
  · rw [if_pos h3, List.cons_append, List.cons_append, List.singleton_append, utf8_decode_cons, utf8_lead3 st _ (by omega), utf8_decode_cons]
    have e : (c.toNat / 4096 * 64 + c.toNat / 64 % 64) * 64 + c.toNat % 64 = c.toNat := by omega
    dsimp only
    rw [utf8_cont st 0 _ _ _ (by omega), utf8_decode_cons]
    dsimp only
    rw [utf8_last st _ _ _ (by omega) (by omega) (by omega), e, hc, he]
    rfl
  rw [if_neg h3]
  rw [List.cons_append, List.cons_append, List.cons_append, List.singleton_append, utf8_decode_cons, utf8_lead4 st _ (by omega), utf8_decode_cons]
  have e : ((c.toNat / 262144 * 64 + c.toNat / 4096 % 64) * 64 + c.toNat / 64 % 64) * 64 + c.toNat % 64 = c.toNat := by omega
  dsimp only
  rw [utf8_cont st 1 _ _ _ (by omega), utf8_decode_cons]
  dsimp only
  rw [utf8_cont st 0 _ _ _ (by omega), utf8_decode_cons]
  dsimp only
  rw [utf8_last st _ _ _ (by omega) (by omega) (by omega), e, hc, he]
  rfl

theorem utf8_chars (s : Str) (bs : List UInt8) : utf8.decode (⟨false, 0, 0, 0⟩ : Utf8State) (utf8Encode s ++ bs) =
    ((utf8.decode (⟨false, 0, 0, 0⟩ : Utf8State) bs).1, s ++ (utf8.decode (⟨false, 0, 0, 0⟩ : Utf8State) bs).2) := by
  induction s with
  | nil => rfl
  | cons c s ih =>
    have : utf8Encode (c :: s) ++ bs = utf8Char c ++ (utf8Encode s ++ bs) := by
      unfold utf8Encode; rw [List.flatMap_cons, List.append_assoc]
    rw [this, utf8_char, ih]
    rfl

/-- Reading what was written. -/
theorem utf8_text {s : Str} (h : NoBom s) : Spec.Codec.text utf8 (utf8Encode s) = s := by
  unfold Spec.Codec.text
  cases s with
  | nil => rfl
  | cons c s =>
    have hc := h c rfl
    have : utf8Encode (c :: s) = utf8Char c ++ utf8Encode s := by unfold utf8Encode; rw [List.flatMap_cons]
    have hs := utf8_chars s []
    rw [List.append_nil] at hs
    show (utf8.decode (⟨true, 0, 0, 0⟩ : Utf8State) _).2 = _
    rw [this, utf8_char, hs]
    simp [hc, Codec.decode]

/-- A byte order mark at the beginning is not part of the text. -/
theorem utf8_bom (s : Str) : Spec.Codec.text utf8 (bom ++ utf8Encode s) = s := by
  have hb : bom = utf8Char (Char.ofNat 0xFEFF) := by decide
  have hs := utf8_chars s []
  rw [List.append_nil] at hs
  show (utf8.decode (⟨true, 0, 0, 0⟩ : Utf8State) _).2 = _
  rw [hb, utf8_char, hs]
  simp [Codec.decode]

theorem utf8_injective {s t : Str} (h : utf8Encode s = utf8Encode t) : s = t := by
  have h1 := utf8_chars s []
  have h2 := utf8_chars t []
  rw [h] at h1
  have := h1.symm.trans h2
  have := congrArg Prod.snd this
  simpa using this

theorem latin1_decode (st : Unit) (bs : List UInt8) : (latin1.decode st bs).2 = bs.map (fun b => Char.ofNat b.toNat) := by
  induction bs generalizing st with
  | nil => rfl
  | cons b bs ih =>
    show [Char.ofNat b.toNat] ++ (latin1.decode () bs).2 = _
    rw [ih]; rfl

end KompareDiff2
