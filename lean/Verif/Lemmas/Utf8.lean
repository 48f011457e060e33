import Verif.Model.FileText
/-!
# The decoder is the inverse of the encoding
-/
namespace Acltk.FileText
open Acltk

theorem valid_char (c : Char) : c.toNat < 55296 ∨ 57343 < c.toNat ∧ c.toNat < 1114112 := c.valid

theorem chr_iff {n : Nat} {c : Char} : chr n = some c ↔ n = c.toNat := by
  unfold chr
  split
  · rename_i h
    constructor
    · intro e
      cases e
      rfl
    · rintro rfl
      congr 1
  · rename_i h
    constructor
    · intro e; cases e
    · rintro rfl
      exact absurd (valid_char c) h

theorem byte {n : Nat} (h : n < 256) : (UInt8.ofNat n).toNat = n := by
  rw [UInt8.toNat_ofNat']; omega

theorem map_iff {α β : Type} {o : Option α} {x : β} {c : α} {r : β} : o.map (·, x) = some (c, r) ↔ o = some c ∧ x = r := by
  cases o <;> simp

theorem decodeOne_encode (c : Char) (r : List UInt8) : decodeOne (String.utf8EncodeChar c ++ r) = some (c, r) := by
  have hv := valid_char c
  have e : c.val.toNat = c.toNat := rfl
  unfold String.utf8EncodeChar
  rw [e]
  generalize hn : c.toNat = n at hv
  have done : ∀ m, m = n → (chr m).map (·, r) = some (c, r) := by
    intro m hm
    rw [map_iff, chr_iff]
    exact ⟨by omega, rfl⟩
  dsimp only
  by_cases h1 : n ≤ 127
  · rw [if_pos h1]
    simp only [List.cons_append, List.nil_append, decodeOne]
    rw [byte (by omega), if_pos (by omega)]
    exact done _ rfl
  rw [if_neg h1]
  by_cases h2 : n ≤ 2047
  · rw [if_pos h2]
    have ha := byte (n := n / 64 % 32 + 192) (by omega)
    have hb := byte (n := n % 64 + 128) (by omega)
    generalize UInt8.ofNat (n / 64 % 32 + 192) = a at ha
    generalize UInt8.ofNat (n % 64 + 128) = b at hb
    simp only [List.cons_append, List.nil_append, decodeOne]
    rw [if_neg (by omega), if_neg (by omega), if_pos (by omega), if_pos (by simp [isCont]; omega)]
    exact done _ (by omega)
  rw [if_neg h2]
  by_cases h3 : n ≤ 65535
  · rw [if_pos h3]
    have ha := byte (n := n / 4096 % 16 + 224) (by omega)
    have hb := byte (n := n / 64 % 64 + 128) (by omega)
    have hc := byte (n := n % 64 + 128) (by omega)
    generalize UInt8.ofNat (n / 4096 % 16 + 224) = a at ha
    generalize UInt8.ofNat (n / 64 % 64 + 128) = b at hb
    generalize UInt8.ofNat (n % 64 + 128) = d at hc
    simp only [List.cons_append, List.nil_append, decodeOne]
    rw [if_neg (by omega), if_neg (by omega), if_neg (by omega), if_pos (by omega), if_pos (by simp [isCont]; omega)]
    exact done _ (by omega)
  rw [if_neg h3]
  have ha := byte (n := n / 262144 % 8 + 240) (by omega)
  have hb := byte (n := n / 4096 % 64 + 128) (by omega)
  have hc := byte (n := n / 64 % 64 + 128) (by omega)
  have hd := byte (n := n % 64 + 128) (by omega)
  generalize UInt8.ofNat (n / 262144 % 8 + 240) = a at ha
  generalize UInt8.ofNat (n / 4096 % 64 + 128) = b at hb
  generalize UInt8.ofNat (n / 64 % 64 + 128) = d at hc
  generalize UInt8.ofNat (n % 64 + 128) = e' at hd
  simp only [List.cons_append, List.nil_append, decodeOne]
  rw [if_neg (by omega), if_neg (by omega), if_neg (by omega), if_neg (by omega), if_pos (by omega), if_pos (by simp [isCont]; omega)]
  exact done _ (by omega)

theorem toByte {a : UInt8} {n : Nat} (h : n = a.toNat) : UInt8.ofNat n = a := by
  subst h
  simp

theorem encode_of_decodeOne {bs : List UInt8} {c : Char} {r : List UInt8} (h : decodeOne bs = some (c, r)) :
    bs = String.utf8EncodeChar c ++ r := by
  cases bs with
  | nil => simp [decodeOne] at h
  | cons a r' =>
    have hv := valid_char c
    have e : c.val.toNat = c.toNat := rfl
    unfold String.utf8EncodeChar
    rw [e]
    have ha := a.toNat_lt
    unfold decodeOne at h
    dsimp only at h
    dsimp only
    by_cases h1 : a.toNat < 0x80
    · rw [if_pos h1, map_iff, chr_iff] at h
      obtain ⟨h, rfl⟩ := h
      rw [if_pos (by omega), toByte h.symm]
      rfl
    rw [if_neg h1] at h
    by_cases h2 : a.toNat < 0xc2
    · rw [if_pos h2] at h; cases h
    rw [if_neg h2] at h
    by_cases h3 : a.toNat < 0xe0
    · rw [if_pos h3] at h
      match r', h with
      | b :: r', h =>
        simp only at h
        split at h
        · rename_i hb
          simp only [isCont, Bool.and_eq_true, decide_eq_true_eq] at hb
          rw [map_iff, chr_iff] at h
          obtain ⟨h, rfl⟩ := h
          rw [if_neg (by omega), if_pos (by omega), toByte (a := a) (by omega), toByte (a := b) (by omega)]
          rfl
        · cases h
    rw [if_neg h3] at h
    by_cases h4 : a.toNat < 0xf0
    · rw [if_pos h4] at h
      match r', h with
      | b :: d :: r', h =>
        simp only at h
        split at h
        · rename_i hb
          simp only [isCont, Bool.and_eq_true, decide_eq_true_eq, Bool.not_eq_true', Bool.and_eq_false_iff, beq_eq_false_iff_ne,
            decide_eq_false_iff_not] at hb
          rw [map_iff, chr_iff] at h
          obtain ⟨h, rfl⟩ := h
          rw [if_neg (by omega), if_neg (by omega), if_pos (by omega), toByte (a := a) (by omega), toByte (a := b) (by omega),
            toByte (a := d) (by omega)]
          rfl
        · cases h
    rw [if_neg h4] at h
    by_cases h5 : a.toNat < 0xf5
    · rw [if_pos h5] at h
      match r', h with
      | b :: d :: e :: r', h =>
        simp only at h
        split at h
        · rename_i hb
          simp only [isCont, Bool.and_eq_true, decide_eq_true_eq, Bool.not_eq_true', Bool.and_eq_false_iff, beq_eq_false_iff_ne,
            decide_eq_false_iff_not] at hb
          rw [map_iff, chr_iff] at h
          obtain ⟨h, rfl⟩ := h
          rw [if_neg (by omega), if_neg (by omega), if_neg (by omega), toByte (a := a) (by omega), toByte (a := b) (by omega),
            toByte (a := d) (by omega), toByte (a := e) (by omega)]
          rfl
        · cases h
    rw [if_neg h5] at h
    cases h

theorem encode_ne (c : Char) (r : List UInt8) : String.utf8EncodeChar c ++ r ≠ [] := by
  intro h
  have := decodeOne_encode c r
  rw [h] at this
  simp [decodeOne] at this

/-- Exactly the texts in UTF-8 are decoded, to that text. -/
theorem utf8Decode_iff {bs : List UInt8} {t : List Char} : utf8Decode bs = some t ↔ bs = t.flatMap String.utf8EncodeChar := by
  constructor
  · intro h
    induction t generalizing bs with
    | nil =>
      unfold utf8Decode at h
      cases bs with
      | nil => rfl
      | cons a r =>
        simp only at h
        split at h
        · cases h
        · split at h <;> cases h
    | cons c t ih =>
      unfold utf8Decode at h
      cases bs with
      | nil => cases h
      | cons a r =>
        simp only at h
        split at h
        · cases h
        · rename_i hd
          split at h
          · cases h
          · rename_i ht
            cases h
            rw [encode_of_decodeOne hd, ih ht]
            rfl
  · rintro rfl
    induction t with
    | nil => unfold utf8Decode; rfl
    | cons c t ih =>
      rw [List.flatMap_cons]
      have h1 := decodeOne_encode c (t.flatMap String.utf8EncodeChar)
      have h2 := encode_ne c (t.flatMap String.utf8EncodeChar)
      generalize String.utf8EncodeChar c ++ t.flatMap String.utf8EncodeChar = bs at h1 h2
      unfold utf8Decode
      cases bs with
      | nil => exact absurd rfl h2
      | cons a r =>
        simp only
        split
        · rename_i hd; rw [hd] at h1; cases h1
        · rename_i hd
          rw [hd] at h1
          cases h1
          rw [ih]

end Acltk.FileText
