import Verif.Lemmas.DosFwsm
import Verif.Lemmas.Ipv6Text
import Verif.Props.Banner
/-!
# Banners with DOS line ends
-/
namespace Acltk.Dos
open Acltk Acltk.Lookup Acltk.Peg Acltk.Banner

variable {ks : List String}

theorem hexText_256 {m b : Nat} (hm : 0 < m) (hb : b < 256) : hexText (256 * m + b) = hexText m ++ (hexText (b / 16) ++ hexText (b % 16)) := by
  unfold hexText
  have h1 : Nat.toDigits 16 m ++ Nat.toDigits 16 (b / 16) = Nat.toDigits 16 (16 * m + b / 16) :=
    Nat.toDigits_append_toDigits (by decide) hm (by omega)
  have h2 : Nat.toDigits 16 (16 * m + b / 16) ++ Nat.toDigits 16 (b % 16) = Nat.toDigits 16 (16 * (16 * m + b / 16) + b % 16) :=
    Nat.toDigits_append_toDigits (by decide) (by omega) (by omega)
  rw [← List.append_assoc, h1, h2]
  congr 1
  omega

theorem hexText_plain (n : Nat) : Plain (hexText n) := ⟨hexText_no (by decide), hexText_no (by decide)⟩

/-- The hexadecimal digits begin with those of a byte that has its high bit set. -/
def High (n : Nat) : Prop := ∃ k rest, 128 ≤ k ∧ k < 192 ∧ hexText n = hexText k ++ rest ∧ Plain rest

theorem High.byte {k : Nat} (h1 : 128 ≤ k) (h2 : k < 192) : High k := ⟨k, [], h1, h2, by simp, by decide⟩

theorem High.step {n b : Nat} (h : High n) (hb : b < 256) : High (256 * n + b) := by
  obtain ⟨k, rest, h1, h2, h3, h4⟩ := h
  have hn : 0 < n := by
    rcases Nat.eq_zero_or_pos n with rfl | h
    · exfalso
      have : (hexText 0).length = (hexText k ++ rest).length := by rw [h3]
      have hk : (hexText k).length ≠ 1 := by
        have : ¬ (hexText k).length ≤ 1 := by
          unfold hexText
          rw [Nat.length_toDigits_le_iff (by decide) (by decide)]
          omega
        omega
      have e : (hexText 0).length = 1 := by decide
      have : 0 < (hexText k).length := List.length_pos_iff.2 (hexText_ne_nil k)
      simp only [List.length_append] at *
      omega
    · exact h
  refine ⟨k, rest ++ (hexText (b / 16) ++ hexText (b % 16)), h1, h2, by rw [hexText_256 hn hb, h3]; simp, ?_⟩
  have p1 := hexText_plain (b / 16)
  have p2 := hexText_plain (b % 16)
  unfold Plain at *
  simp only [List.mem_append, not_or]
  exact ⟨⟨h4.1, p1.1, p2.1⟩, h4.2, p1.2, p2.2⟩

theorem High.literals {n : Nat} (h : High n) : Plain (regexLiterals n) ∧ regexLiterals n ≠ [] := by
  obtain ⟨k, rest, h1, h2, h3, h4⟩ := h
  have key : ∀ j : Fin 64, ∃ a b, hexText (j.val + 128) = [a, b] ∧ Char.ofNat (hexVal a * 16 + hexVal b) ≠ '\n' ∧ Char.ofNat (hexVal a * 16 + hexVal b) ≠ '\r' := by
    intro j
    have : ∀ j : Fin 64, (match hexText (j.val + 128) with
      | [a, b] => decide (Char.ofNat (hexVal a * 16 + hexVal b) ≠ '\n' ∧ Char.ofNat (hexVal a * 16 + hexVal b) ≠ '\r')
      | _ => false) = true := by decide +kernel
    have := this j
    split at this
    · rename_i a b e; exact ⟨a, b, e, by simpa using this⟩
    · cases this
  obtain ⟨a, b, hab, n1, n2⟩ := key ⟨k - 128, by omega⟩
  have e : k - 128 + 128 = k := by omega
  simp only [e] at hab
  rw [hab] at h3
  have e : regexLiterals n = Char.ofNat (hexVal a * 16 + hexVal b) :: rest := by
    unfold regexLiterals hex02
    rw [h3]
    rfl
  rw [e]
  refine ⟨⟨?_, ?_⟩, by simp⟩
  · simp only [List.mem_cons, not_or]; exact ⟨Ne.symm n1, h4.1⟩
  · simp only [List.mem_cons, not_or]; exact ⟨Ne.symm n2, h4.2⟩

/-- What is looked for at the end of a banner has no line end, when the delimiter is none. -/
theorem literals_plain {c : Char} (h1 : c ≠ '\n') (h2 : c ≠ '\r') :
    Plain (regexLiterals (fromBytesLittle (utf8 c))) ∧ regexLiterals (fromBytesLittle (utf8 c)) ≠ [] := by
  by_cases h : c.toNat < 128
  · rw [literals_ascii h]
    simp [Plain, Ne.symm h1, Ne.symm h2]
  · refine High.literals ?_
    have hv : ¬ c.val.toNat ≤ 127 := by
      have : c.toNat = c.val.toNat := rfl
      omega
    unfold utf8 String.utf8EncodeChar
    simp only [hv, if_false]
    have b : ∀ x, x < 256 → (UInt8.ofNat x).toNat = x := fun x hx => by simp; omega
    split
    · simp only [List.map_cons, List.map_nil, fromBytesLittle]
      rw [b _ (by omega), b _ (by omega)]
      have := (High.byte (k := c.val.toNat % 64 + 128) (by omega) (by omega)).step (b := c.val.toNat / 64 % 32 + 192) (by omega)
      simpa [Nat.add_comm] using this
    · split
      · simp only [List.map_cons, List.map_nil, fromBytesLittle]
        rw [b _ (by omega), b _ (by omega), b _ (by omega)]
        have := ((High.byte (k := c.val.toNat % 64 + 128) (by omega) (by omega)).step (b := c.val.toNat / 64 % 64 + 128) (by omega)).step
          (b := c.val.toNat / 4096 % 16 + 224) (by omega)
        simpa [Nat.add_comm] using this
      · simp only [List.map_cons, List.map_nil, fromBytesLittle]
        rw [b _ (by omega), b _ (by omega), b _ (by omega), b _ (by omega)]
        have := (((High.byte (k := c.val.toNat % 64 + 128) (by omega) (by omega)).step (b := c.val.toNat / 64 % 64 + 128) (by omega)).step
          (b := c.val.toNat / 4096 % 64 + 128) (by omega)).step (b := c.val.toNat / 262144 % 8 + 240) (by omega)
        simpa [Nat.add_comm] using this

theorem scanUntil_rel {l : List Char} (hl : Plain l) {t t' : Text} (h : Rel ks t t') :
    Rel ks (scanUntil l t).2 (scanUntil l t').2 ∧ (scanUntil l t).2.length ≤ t.length ∧ (scanUntil l t').2.length ≤ t'.length := by
  obtain ⟨hg, h⟩ := h
  induction h with
  | done => exact ⟨⟨hg, .done⟩, Nat.le_refl _, Nat.le_refl _⟩
  | char c hc h ih =>
    have ih := ih hg.tail
    simp only [scanUntil]
    by_cases hm : c ∈ l
    · simp only [hm, if_true]
      exact ⟨⟨hg, .char c hc h⟩, Nat.le_refl _, Nat.le_refl _⟩
    · simp only [hm, if_false, List.length_cons]
      exact ⟨ih.1, by omega, by omega⟩
  | unix h ih =>
    have ih := ih hg.tail
    simp only [scanUntil, hl.1, if_false, List.length_cons]
    exact ⟨ih.1, by omega, by omega⟩
  | dos h ih =>
    have ih := ih hg.tail
    simp only [scanUntil, hl.1, hl.2, if_false, List.length_cons]
    exact ⟨ih.1, by omega, by omega⟩

theorem scanCaret_cons {c : Char} (hc : c ≠ '^') (t : Text) : scanCaret (c :: t) = (c :: (scanCaret t).1, (scanCaret t).2) := by
  rw [scanCaret]
  · exact fun h _ => hc h
  · exact fun _ _ h _ => hc h

theorem scanCaret_rel {t t' : Text} (h : Rel ks t t') :
    Rel ks (scanCaret t).2 (scanCaret t').2 ∧ (scanCaret t).2.length ≤ t.length ∧ (scanCaret t').2.length ≤ t'.length := by
  induction hn : t.length using Nat.strongRecOn generalizing t t' with
  | _ n ih =>
    subst hn
    rcases h.cases_on with ⟨rfl, rfl⟩ | ⟨x, x', rfl, hx, rfl | rfl⟩ | ⟨c, x, x', h1, h2, rfl, rfl, hx⟩
    · exact ⟨h, Nat.le_refl _, Nat.le_refl _⟩
    · have := ih x.length (by simp) hx rfl
      rw [scanCaret_cons (by decide), scanCaret_cons (by decide), scanCaret_cons (by decide)]
      simp only [List.length_cons]
      exact ⟨this.1, by omega, by omega⟩
    · have := ih x.length (by simp) hx rfl
      rw [scanCaret_cons (by decide), scanCaret_cons (by decide)]
      simp only [List.length_cons]
      exact ⟨this.1, by omega, by omega⟩
    · by_cases hc : c = '^'
      · subst hc
        rcases hx.cases_on with ⟨rfl, rfl⟩ | ⟨y, y', rfl, hy, rfl | rfl⟩ | ⟨d, y, y', h3, h4, rfl, rfl, hy⟩
        · exact ⟨h, Nat.le_refl _, Nat.le_refl _⟩
        · have it := ih y.length (by simp; omega) hy rfl
          have e1 : scanCaret ('^' :: '\n' :: y) = ('^' :: '\n' :: (scanCaret y).1, (scanCaret y).2) := by
            simp [scanCaret]
          have e2 : scanCaret ('^' :: '\r' :: '\n' :: y') = ('^' :: '\r' :: '\n' :: (scanCaret y').1, (scanCaret y').2) := by
            rw [scanCaret]; simp [scanCaret_cons]
          rw [e1, e2]
          simp only [List.length_cons]
          exact ⟨it.1, by omega, by omega⟩
        · have it := ih y.length (by simp; omega) hy rfl
          have e1 : ∀ u : Text, scanCaret ('^' :: '\n' :: u) = ('^' :: '\n' :: (scanCaret u).1, (scanCaret u).2) := by
            intro u; simp [scanCaret]
          rw [e1, e1]
          simp only [List.length_cons]
          exact ⟨it.1, by omega, by omega⟩
        · have it := ih y.length (by simp; omega) hy rfl
          by_cases hC : d = 'C'
          · subst hC
            have e : ∀ u : Text, scanCaret ('^' :: 'C' :: u) = ([], '^' :: 'C' :: u) := fun u => by rw [scanCaret]; simp
            rw [e, e]
            exact ⟨h, Nat.le_refl _, Nat.le_refl _⟩
          · have e : ∀ u : Text, scanCaret ('^' :: d :: u) = ('^' :: d :: (scanCaret u).1, (scanCaret u).2) := fun u => by
              rw [scanCaret]; simp [hC]
            rw [e, e]
            simp only [List.length_cons]
            exact ⟨it.1, by omega, by omega⟩
      · have := ih x.length (by simp) hx rfl
        rw [scanCaret_cons hc, scanCaret_cons hc]
        simp only [List.length_cons]
        exact ⟨this.1, by omega, by omega⟩

/-- A delimiter that is no line end. -/
def DelimOk : Delim → Prop
  | .caretC => True
  | .char c => c ≠ '\n' ∧ c ≠ '\r'

theorem strip_rel {l : List Char} (hl : Plain l) {t t' : Text} (h : Rel ks t t') :
    (stripPrefix l t = none ∧ stripPrefix l t' = none) ∨ ∃ r r', stripPrefix l t = some r ∧ stripPrefix l t' = some r' ∧ Rel ks r r' ∧
      r.length ≤ t.length ∧ r'.length ≤ t'.length := by
  obtain ⟨h1, h2⟩ := prefix_rel hl h
  unfold stripPrefix
  cases hp : l.isPrefixOf t with
  | false => rw [hp] at h1; simp [← h1]
  | true =>
    rw [hp] at h1
    simp only [← h1, if_true]
    exact .inr ⟨_, _, rfl, rfl, (h2 hp).1, by simp, by simp⟩

theorem delimMsg_sim {d : Delim} (hd : DelimOk d) : Sim ks .any (fun _ _ => True) (IosText.delimMsg d) (IosText.delimMsg d) := by
  intro t t' h
  unfold IosText.delimMsg banner
  cases d with
  | caretC =>
    simp only
    obtain ⟨a, b, c⟩ := scanCaret_rel h
    rcases strip_rel (l := ['^', 'C']) (by decide) a with ⟨h1, h2⟩ | ⟨r, r', h1, h2, h3, h4, h5⟩
    · rw [h1, h2]; exact .fail
    · rw [h1, h2]; exact .ok trivial h3 (by omega) (by omega) trivial
  | char x =>
    simp only
    obtain ⟨hp, -⟩ := literals_plain hd.1 hd.2
    obtain ⟨a, b, c⟩ := scanUntil_rel hp h
    rcases strip_rel hp a with ⟨h1, h2⟩ | ⟨r, r', h1, h2, h3, h4, h5⟩
    · rw [h1, h2]; exact .fail
    · rw [h1, h2]; exact .ok trivial h3 (by omega) (by omega) trivial

theorem delimStart_rel {g : Guard} (hg : NextChar g) {t t' : Text} (h : Rel ks t t') (hn : ∀ r, t ≠ '\n' :: r) :
    SimR ks .strict (fun d d' => d = d' ∧ DelimOk d) t t' (IosText.delimStart g t) (IosText.delimStart g t') := by
  have h1 : Sim ks .strict (fun d d' => d = d' ∧ DelimOk d) (do let _ ← tok g "^C"; pure Delim.caretC) (do let _ ← tok g "^C"; pure Delim.caretC) :=
    Sim.bindSE (Sim.tok hg (by decide +kernel)) (fun _ => (Sim.pure ⟨rfl, trivial⟩).toAny)
  have h2 := h1 t t' h
  unfold IosText.delimStart Peg.alt
  revert h2
  generalize (do let _ ← tok g "^C"; pure Delim.caretC : P Delim) t = x
  generalize (do let _ ← tok g "^C"; pure Delim.caretC : P Delim) t' = y
  intro h2
  cases h2 with
  | raise e => exact .raise e
  | ok a b c d e => exact .ok a b c d e
  | fail =>
    simp only
    unfold IosText.delimChar
    rcases h.cases_on with ⟨rfl, rfl⟩ | ⟨x, x', rfl, -⟩ | ⟨c, x, x', h3, h4, rfl, rfl, hx⟩
    · exact .fail
    · exact absurd rfl (hn x)
    · simp only [h3, if_false]
      exact .ok ⟨rfl, h3, h4⟩ hx (by simp) (by simp) ⟨by simp, by simp⟩

theorem banner_sim {g : Guard} (hg : NextChar g) (hk : "motd" ∈ ks) : Sim ks .strict Eq (IosText.banner g) (IosText.banner g) := by
  unfold IosText.banner
  refine Sim.bindSE (by sim) (fun _ => Sim.bindAE Sim.ws (fun _ => Sim.toAny (M := .strict) ?_))
  intro t t' h
  refine SimR.bindAt (N := .any) (Sim.tok hg (by decide +kernel) t t' h) (fun k k' r r' h1 _ _ hr => ?_)
  refine SimR.toAny (SimR.bindAt (N := .any) (Sim.ws r r' hr) (fun _ _ x x' h2 _ _ hx => ?_))
  obtain ⟨b, hb, hbl⟩ := ws_took h2
  have hne : ∀ y, x ≠ '\n' :: y := Good.notEnd hk (b := b) (by rw [← hb, ← tok_took h1]; exact h.good) hbl
  refine SimR.toAny (SimR.bindAt (N := .any) (delimStart_rel hg hx hne) (fun v v' y y' _ _ hv hy => ?_))
  obtain ⟨rfl, hd⟩ := hv
  exact (Sim.bindA (delimMsg_sim hd) (fun _ _ _ => Sim.nl.toAny)) y y' hy

end Acltk.Dos
