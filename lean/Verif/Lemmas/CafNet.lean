import Verif.Lemmas.CafText
import Verif.Lemmas.AclHost
/-!
# Reading CAF texts: networks
-/
namespace Acltk.CafText
open Acltk Acltk.Lookup Acltk.Peg Acltk.Caf

variable {g : Guard}

theorem octet_end (o : Nat) (ho : o < 256) : ∃ L, octetRe.run (decText o) = [] :: L := by
  have : ∀ o : Fin 256, (octetRe.run (decText o.1)).head? = some [] := by decide +kernel
  have := this ⟨o, ho⟩
  simp only at this
  cases h : octetRe.run (decText o) with
  | nil => rw [h] at this; simp at this
  | cons a L => rw [h] at this; simp at this; exact ⟨L, by rw [this]⟩

theorem ip4Re_end {n : Nat} : ∃ L, ip4Re.run (fmtV4 n) = [] :: L := by
  have e : fmtV4 n = decText (n / 2 ^ 24 % 256) ++ '.' :: (decText (n / 2 ^ 16 % 256) ++ '.' ::
      (decText (n / 2 ^ 8 % 256) ++ '.' :: (decText (n % 256)))) := by
    simp [fmtV4, joinWith]
  have lt : ∀ m, m % 256 < 256 := fun m => Nat.mod_lt _ (by decide)
  obtain ⟨L, h⟩ := octet_end (n % 256) (lt _)
  refine ⟨L, ?_⟩
  rw [e]
  show (((Re.seq octetRe (.chr '.')).run _).flatMap _) = _
  rw [octet_dot (lt _)]
  show (((Re.seq octetRe (.chr '.')).run _).flatMap _) ++ [] = _
  rw [octet_dot (lt _)]
  show (((Re.seq octetRe (.chr '.')).run _).flatMap _) ++ [] ++ [] = _
  rw [octet_dot (lt _)]
  show octetRe.run _ ++ [] ++ [] ++ [] = _
  rw [h]; simp

theorem pat_ip4 {n : Nat} (hn : n < 2 ^ 32) {t : Text} (ht : ∀ c ∈ t.head?, c.isDigit = false) :
    pat ip4Re (Dotted n ++ t) = .ok (Dotted n) t := by
  rw [dotted_eq hn]
  cases t with
  | nil =>
    obtain ⟨L, h⟩ := ip4Re_end (n := n)
    exact pat_of_run (L := L) (by simpa using h)
  | cons s t =>
    obtain ⟨L, h⟩ := ip4Re_run (n := n) s t (ht s (by simp))
    exact pat_of_run h

theorem pat_ip4_v6 {s : List Char} {n : Nat} (h : V6Text s n) (t : Text) : pat ip4Re (s ++ t) = .fail := by
  have := AclText.ip4_v6 h t
  unfold AclText.ip4 at this
  rw [bind_apply] at this
  cases hp : pat ip4Re (s ++ t) with
  | fail => rfl
  | raise e => rw [hp] at this; cases this
  | ok a r =>
    rw [hp] at this
    simp only [act] at this
    split at this <;> cases this

theorem pat_ip6 {s : List Char} {n : Nat} (h : V6Text s n) {t : Text}
    (ht : ∀ c ∈ t.head?, (isHex c || c == '.' || c == ':') = false) : pat ip6Re (s ++ t) = .ok s t := by
  obtain ⟨a, r, rfl, h1, h2, h3⟩ := AclText.v6Text_shape h
  obtain ⟨L, hL⟩ := ip6Re_run h1 h2 h3 ht
  exact pat_of_run (w := a ++ ':' :: r) (L := L) (by simpa using hL)

/-- The characters behind a network word. -/
def After (t : Text) : Prop := ∀ c ∈ t.head?, isSpace c = true ∨ c = '(' ∨ c = ')' ∨ c = '/'

theorem After.stop {t : Text} (h : After t) : ∀ c ∈ t.head?, c.isDigit = false ∧ (isHex c || c == '.' || c == ':') = false := by
  intro c hc
  rcases h c hc with h | rfl | rfl | rfl
  · have h1 := space_not_alnum h
    have h2 : c.isDigit = false := by
      unfold Char.isAlphanum at h1; simp at h1; simp [h1]
    refine ⟨h2, ?_⟩
    have hc : ∀ d : Char, isSpace d = false → c ≠ d := by rintro d hd rfl; rw [h] at hd; cases hd
    have hh : isHex c = false := by
      rw [Bool.eq_false_iff]
      intro h'
      have : c.isAlphanum = true := by
        unfold isHex at h'
        unfold Char.isAlphanum Char.isAlpha Char.isUpper Char.isLower
        simp only [Bool.or_eq_true, Bool.and_eq_true, decide_eq_true_eq, ge_iff_le] at h' ⊢
        rcases h' with (h' | h') | h'
        · exact Or.inr h'
        · exact Or.inl (Or.inr ⟨h'.1, UInt32.le_trans h'.2 (by decide)⟩)
        · exact Or.inl (Or.inl ⟨h'.1, UInt32.le_trans h'.2 (by decide)⟩)
      rw [h1] at this; cases this
    simp [hh, hc '.' (by decide), hc ':' (by decide)]
  · decide
  · decide
  · decide

theorem apart_after {w : List Char} {t : Text} (h : Apart (.network w) t) : After t := by
  intro c hc
  rcases apart_not_alnum h (by simp) (by simp) (by simp) c hc with h | h | h | h
  · exact Or.inl h
  · exact Or.inr (Or.inl h)
  · exact Or.inr (Or.inr (Or.inl h))
  · exact Or.inr (Or.inr (Or.inr h.1))

theorem address_chars {w : List Char} {a : Addr} (h : AddressText w a) :
    (∀ c ∈ w, (isHex c || c == '.' || c == ':') = true) ∧ 2 ≤ w.length := by
  cases h with
  | v4 n hn =>
    refine ⟨(AclText.groups_chars (Groups.quad (quad := true) n rfl hn)).2, ?_⟩
    obtain ⟨c, t, e, hc⟩ := AclText.dotted_head hn
    have hd := (dotted_no hn).2
    rw [e] at hd ⊢
    rcases List.mem_cons.1 hd with rfl | hd
    · exact absurd hc (by decide)
    · have := List.length_pos_of_mem hd
      simp; omega
  | v6 _ n h =>
    obtain ⟨a, r, rfl, h1, h2, h3⟩ := AclText.v6Text_shape h
    have := List.length_pos_iff.2 h2
    refine ⟨?_, by simp; omega⟩
    intro c hc
    rcases List.mem_append.1 hc with hc | hc
    · simp [h1 c hc]
    · rcases List.mem_cons.1 hc with rfl | hc
      · decide
      · exact h3 c hc

theorem hex_not_space {c : Char} (h : (isHex c || c == '.' || c == ':') = true) : isSpace c = false := by
  rw [Bool.eq_false_iff]
  intro h'
  have := (After.stop (t := [c]) (by intro d hd; simp at hd; subst hd; exact Or.inl h') c (by simp)).2
  rw [h] at this; cases this

theorem address_shape {w : List Char} {a : Addr} (h : AddressText w a) :
    ∃ c d u, w = c :: d :: u ∧ isSpace c = false ∧ c ≠ '/' ∧ d ≠ 'n' ∧ d ≠ 'N' := by
  obtain ⟨h1, h2⟩ := address_chars h
  match w, h1, h2 with
  | c :: d :: u, h1, _ =>
    have hc := h1 c (by simp)
    have hd := h1 d (by simp)
    refine ⟨c, d, u, rfl, hex_not_space hc, ?_, ?_, ?_⟩
    · rintro rfl; revert hc; decide
    · rintro rfl; revert hd; decide
    · rintro rfl; revert hd; decide

theorem drop_proper {c : Char} (hc : isSpace c = false) (t : Text) : (c :: t).dropWhile isSpace = c :: t :=
  List.dropWhile_cons_of_neg (by simp [hc])

/-- The address part of a network word. -/
theorem address_pat {w : List Char} {a : Addr} (h : AddressText w a) {t : Text} (ht : After t) :
    alt (skip (pat ip4Re)) (skip (pat ip6Re)) (w ++ t) = .ok w t := by
  obtain ⟨c, d, u, e, hc, -⟩ := address_shape h
  have hd : (w ++ t).dropWhile isSpace = w ++ t := by rw [e]; exact drop_proper hc _
  cases h with
  | v4 n hn =>
    apply alt_ok
    show pat ip4Re (List.dropWhile _ _) = _
    rw [hd]
    exact pat_ip4 hn (fun c hc => (ht.stop c hc).1)
  | v6 _ n h =>
    rw [alt_fail]
    · show pat ip6Re (List.dropWhile _ _) = _
      rw [hd]
      exact pat_ip6 h (fun c hc => (ht.stop c hc).2)
    · show pat ip4Re (List.dropWhile _ _) = _
      rw [hd]
      exact pat_ip4_v6 h t

theorem address_sem {w : List Char} {a : Addr} (h : AddressText w a) : ipAddress w = .ok a := by
  cases h with
  | v4 n hn => exact (C64_address_text _).1 n |>.2 ⟨hn, rfl⟩
  | v6 _ n h => exact (C64_address_text _).2.1 n |>.2 h

theorem network_sem {w m : List Char} {a : Addr} {p : Nat} {n : Net} (h : AddressText w a) (hm : MaskText a.ver m p)
    (hn : AclText.NetworkOf a p n) : mkNetwork w m = .ok n := by
  have hv := ipAddress_valid (address_sem h)
  rw [← AclText.mkNetwork_networkOf hv hm hn, mkNetwork_of_address (address_sem h), mkNetwork_of_address (ipAddress_text hv)]

/-- No keyword begins an address. -/
theorem any_fail {w : List Char} {a : Addr} (h : AddressText w a) (t : Text) :
    alts (anyKeys.map (fun kh => (do
      let _ ← key g kh.1
      pure kh.2 : P Host))) (w ++ t) = .fail := by
  obtain ⟨c, d, u, e, hc, -, h1, h2⟩ := address_shape h
  subst e
  have go : ∀ s : String, (∃ x y z, s.toList = x :: y :: z ∧ (y = 'n' ∨ y = 'N')) → key g s (c :: d :: u ++ t) = .fail := by
    rintro s ⟨x, y, z, hs, hy⟩
    show tok g s (List.dropWhile _ _) = _
    rw [List.cons_append, drop_proper hc]
    apply tok_not_prefix
    rw [hs]
    rintro ⟨r, hr⟩
    simp at hr
    rcases hy with rfl | rfl
    · exact h1 hr.2.1.symm
    · exact h2 hr.2.1.symm
  have f : ∀ s (v : Host), (∃ x y z, s.toList = x :: y :: z ∧ (y = 'n' ∨ y = 'N')) →
      (do let _ ← key g s; pure v : P Host) (c :: d :: u ++ t) = .fail := fun s v hs => bind_fail (go s hs)
  simp only [anyKeys, List.map_cons, List.map_nil]
  rw [alts_fail (f _ _ ⟨'A', 'N', _, rfl, Or.inr rfl⟩), alts_fail (f _ _ ⟨'A', 'N', _, rfl, Or.inr rfl⟩),
    alts_fail (f _ _ ⟨'A', 'N', _, rfl, Or.inr rfl⟩), alts_fail (f _ _ ⟨'a', 'n', _, rfl, Or.inl rfl⟩),
    alts_fail (f _ _ ⟨'a', 'n', _, rfl, Or.inl rfl⟩), alts_fail (f _ _ ⟨'a', 'n', _, rfl, Or.inl rfl⟩)]
  rfl

/-- The words that may stand behind a network. -/
def NetNext (ws : List Word) : Prop :=
  ∀ w ∈ ws.head?, (∃ s ∈ keys, w = .key s) ∨ (∃ b, w = .comment b) ∨ ∃ x h, w = .network x ∧ NetworkWord x h

theorem networkWord_head {w : List Char} {h : Host} (hw : NetworkWord w h) : ∃ c u, w = c :: u ∧ isSpace c = false ∧ c ≠ '/' := by
  have fix : ∀ s : List Char, (s.head?.map (fun c => !isSpace c && c != '/')) = some true → ∃ c u, s = c :: u ∧ isSpace c = false ∧ c ≠ '/' := by
    intro s hs
    cases s with
    | nil => simp at hs
    | cons c u => simp at hs; exact ⟨c, u, rfl, by simpa using hs.1, by simpa using hs.2⟩
  cases hw with
  | host w a h => obtain ⟨c, d, u, rfl, h1, h2, -⟩ := address_shape h; exact ⟨c, d :: u, rfl, h1, h2⟩
  | net w b b' m a p n h => obtain ⟨c, d, u, rfl, h1, h2, -⟩ := address_shape h; exact ⟨c, _, rfl, h1, h2⟩
  | _ => exact fix _ (by decide)

/-- `["/" netmask:int]` -/
def maskP (g : Guard) : P (List Char) := do
  let _ ← key g "/"
  skip (pat (.plus Char.isDigit))

theorem mask_none (hg : NameGuard g) {ws : List Word} (h : NetNext ws) : Fl (maskP g) ws := by
  cases ws with
  | nil => exact Fl.bind (key_nil (by decide))
  | cons w ws =>
    rcases h w (by simp) with ⟨s, hs, rfl⟩ | ⟨b, rfl⟩ | ⟨x, hh, rfl, hx⟩
    · have : ∀ s ∈ keys, "/".toList.isPrefixOf s.toList = false ∧ s.toList.isPrefixOf "/".toList = false := by decide +kernel
      exact Fl.bind (key_other (this s hs).1 (this s hs).2 _)
    · intro t ht
      obtain ⟨t', e, -⟩ := ht.cons_drop
      have e2 : t.dropWhile isSpace = "/".toList ++ ('*' :: (b ++ ['*', '/']) ++ t') := by rw [e]; rfl
      unfold maskP
      have h1 : key g "/" t = .ok "/" ('*' :: (b ++ ['*', '/']) ++ t') := by
        show tok g "/" (List.dropWhile _ _) = _
        rw [e2]
        exact tok_prefix (hg.symbols _ _ ⟨'/', by decide, by decide⟩)
      rw [bind_ok h1]
      show pat _ (List.dropWhile _ _) = _
      rw [List.cons_append, drop_proper (by decide)]
      exact pat_cls_fail (by intro c hc; simp at hc; subst hc; decide)
    · obtain ⟨c, u, rfl, h1, h2⟩ := networkWord_head hx
      apply Fl.bind
      intro t ht
      obtain ⟨t', e, -⟩ := ht.cons_drop
      show tok g "/" (List.dropWhile _ _) = _
      rw [e]
      apply tok_not_prefix
      rintro ⟨r, hr⟩
      simp [Word.text] at hr
      exact h2 hr.1.symm

theorem mask_some (hg : NameGuard g) {b b' m : List Char} (hb : ∀ c ∈ b, isSpace c = true) (hb' : ∀ c ∈ b', isSpace c = true)
    (hm : m ≠ []) (hd : ∀ c ∈ m, c.isDigit = true) {t : Text} (ht : After t) :
    maskP g (b ++ '/' :: (b' ++ m) ++ t) = .ok m t := by
  unfold maskP
  have h1 : key g "/" (b ++ '/' :: (b' ++ m) ++ t) = .ok "/" (b' ++ (m ++ t)) := by
    show tok g "/" (List.dropWhile _ _) = _
    rw [List.append_assoc, dropWhile_spaces hb, List.cons_append, drop_proper (by decide), List.append_assoc]
    exact tok_prefix (s := "/") (t := b' ++ (m ++ t)) (hg.symbols _ _ ⟨'/', by decide, by decide⟩)
  rw [bind_ok h1]
  show pat _ (List.dropWhile _ _) = _
  rw [dropWhile_spaces hb']
  obtain ⟨c, u, e⟩ := List.exists_cons_of_ne_nil hm
  have : (m ++ t).dropWhile isSpace = m ++ t := by
    rw [e]
    apply drop_proper
    have := hd c (by rw [e]; simp)
    rcases digit_cases this with rfl | rfl | rfl | rfl | rfl | rfl | rfl | rfl | rfl | rfl <;> decide
  rw [this]
  exact pat_plus hm hd (fun c hc => (ht.stop c hc).1)

theorem network_eq (g : Guard) : network g = skip (alt
    (alts (anyKeys.map (fun kh => do
      let _ ← key g kh.1
      pure kh.2)))
    (do
      let a ← alt (skip (pat ip4Re)) (skip (pat ip6Re))
      let m ← opt (maskP g)
      act (addressSem a m))) := rfl

theorem network_read (hg : NameGuard g) {w : List Char} {h : Host} (hw : NetworkWord w h) {more : List Word} (hm : NetNext more) :
    Rd (network g) (.ok h) [.network w] more := by
  rw [network_eq]
  intro t ht
  obtain ⟨t', e, hr, ha, -, hl⟩ := ht.cons_drop
  have haft := apart_after ha
  refine ⟨t', ?_, hr, by simpa using hl⟩
  show alt _ _ (List.dropWhile _ _) = _
  rw [e]
  have kok : ∀ s : String, (∃ c u, s.toList = c :: u ∧ isSpace c = false) → key g s (s.toList ++ t') = .ok s t' := by
    rintro s ⟨c, u, hs, hc⟩
    show tok g s (List.dropWhile _ _) = _
    have : (s.toList ++ t').dropWhile isSpace = s.toList ++ t' := by rw [hs]; exact drop_proper hc _
    rw [this]
    exact tok_prefix (guard_apart hg ha (by simp) (by simp) (by simp))
  have kno : ∀ (s : String) (x : List Char), (∃ c u, x = c :: u ∧ isSpace c = false) → s.toList.isPrefixOf x = false →
      x.isPrefixOf s.toList = false → key g s (x ++ t') = .fail := by
    rintro s x ⟨c, u, rfl, hc⟩ h1 h2
    show tok g s (List.dropWhile _ _) = _
    rw [List.cons_append, drop_proper hc]
    exact tok_apart h1 h2
  have kend : ∀ (s : String) (x : List Char) (d : Char), (∃ c u, x = c :: u ∧ isSpace c = false) → s.toList = x ++ [d] → d.isDigit = true →
      key g s (x ++ t') = .fail := by
    rintro s x d ⟨c, u, hx, hc⟩ h1 hd
    show tok g s (List.dropWhile _ _) = _
    have : (x ++ t').dropWhile isSpace = x ++ t' := by rw [hx]; exact drop_proper hc _
    rw [this]
    apply tok_not_prefix
    rw [h1]
    intro hp
    have := (List.prefix_append_right_inj x).1 hp
    obtain ⟨r, hr⟩ := this
    have := (haft.stop d (by rw [← hr]; simp)).1
    rw [hd] at this; cases this
  simp only [anyKeys, List.map_cons, List.map_nil, Word.text]
  cases hw with
  | ANY4 => exact alt_ok (alts_ok (bind_ok (kok "ANY4" ⟨_, _, rfl, by decide⟩)))
  | ANY6 =>
    exact alt_ok ((alts_fail (bind_fail (kno _ _ ⟨_, _, rfl, by decide⟩ (by decide) (by decide)))).trans
      (alts_ok (bind_ok (kok "ANY6" ⟨_, _, rfl, by decide⟩))))
  | ANY =>
    refine alt_ok ?_
    rw [alts_fail (bind_fail (kend "ANY4" "ANY".toList '4' ⟨_, _, rfl, by decide⟩ rfl (by decide)))]
    rw [alts_fail (bind_fail (kend "ANY6" "ANY".toList '6' ⟨_, _, rfl, by decide⟩ rfl (by decide)))]
    exact alts_ok (bind_ok (kok "ANY" ⟨_, _, rfl, by decide⟩))
  | any4 =>
    refine alt_ok ?_
    rw [alts_fail (bind_fail (kno "ANY4" "any4".toList ⟨_, _, rfl, by decide⟩ (by decide) (by decide)))]
    rw [alts_fail (bind_fail (kno "ANY6" "any4".toList ⟨_, _, rfl, by decide⟩ (by decide) (by decide)))]
    rw [alts_fail (bind_fail (kno "ANY" "any4".toList ⟨_, _, rfl, by decide⟩ (by decide) (by decide)))]
    exact alts_ok (bind_ok (kok "any4" ⟨_, _, rfl, by decide⟩))
  | any6 =>
    refine alt_ok ?_
    rw [alts_fail (bind_fail (kno "ANY4" "any6".toList ⟨_, _, rfl, by decide⟩ (by decide) (by decide)))]
    rw [alts_fail (bind_fail (kno "ANY6" "any6".toList ⟨_, _, rfl, by decide⟩ (by decide) (by decide)))]
    rw [alts_fail (bind_fail (kno "ANY" "any6".toList ⟨_, _, rfl, by decide⟩ (by decide) (by decide)))]
    rw [alts_fail (bind_fail (kno "any4" "any6".toList ⟨_, _, rfl, by decide⟩ (by decide) (by decide)))]
    exact alts_ok (bind_ok (kok "any6" ⟨_, _, rfl, by decide⟩))
  | any =>
    refine alt_ok ?_
    rw [alts_fail (bind_fail (kno "ANY4" "any".toList ⟨_, _, rfl, by decide⟩ (by decide) (by decide)))]
    rw [alts_fail (bind_fail (kno "ANY6" "any".toList ⟨_, _, rfl, by decide⟩ (by decide) (by decide)))]
    rw [alts_fail (bind_fail (kno "ANY" "any".toList ⟨_, _, rfl, by decide⟩ (by decide) (by decide)))]
    rw [alts_fail (bind_fail (kend "any4" "any".toList '4' ⟨_, _, rfl, by decide⟩ rfl (by decide)))]
    rw [alts_fail (bind_fail (kend "any6" "any".toList '6' ⟨_, _, rfl, by decide⟩ rfl (by decide)))]
    exact alts_ok (bind_ok (kok "any" ⟨_, _, rfl, by decide⟩))
  | host w a h =>
    have := any_fail (g := g) h t'
    simp only [anyKeys, List.map_cons, List.map_nil] at this
    rw [alt_fail this, bind_ok (address_pat h haft), bind_ok (opt_fail (mask_none hg hm t' hr))]
    apply act_ok
    simp only [addressSem, address_sem h]
  | net w b b' m a p n h hb hb' hne hd hmt hn =>
    have := any_fail (g := g) h (b ++ '/' :: (b' ++ m) ++ t')
    simp only [anyKeys, List.map_cons, List.map_nil] at this
    have e3 : w ++ (b ++ '/' :: (b' ++ m)) ++ t' = w ++ (b ++ '/' :: (b' ++ m) ++ t') := by simp
    have ha : After (b ++ '/' :: (b' ++ m) ++ t') := by
      intro c hc
      cases b with
      | nil => simp at hc; subst hc; simp
      | cons d b => simp at hc; subst hc; exact Or.inl (hb _ (by simp))
    rw [e3, alt_fail this, bind_ok (address_pat h ha), bind_ok (opt_ok (mask_some hg hb hb' hne hd haft))]
    apply act_ok
    simp only [addressSem, network_sem h hmt hn]

/-- The words that end the networks of a clause. -/
def NetStop (ws : List Word) : Prop :=
  ∀ w ∈ ws.head?, (∃ s ∈ ["ip", "union", "intersect", "except", "(", ")"], w = .key s) ∨ ∃ b, w = .comment b

theorem NetStop.next {ws : List Word} (h : NetStop ws) : NetNext ws := by
  intro w hw
  rcases h w hw with ⟨s, hs, rfl⟩ | h
  · refine Or.inl ⟨s, ?_, rfl⟩
    simp only [List.mem_cons, List.not_mem_nil, or_false] at hs
    rcases hs with rfl | rfl | rfl | rfl | rfl | rfl <;> decide
  · exact Or.inr (Or.inl h)

theorem pat_address_fail {c : Char} {t : Text} (h1 : c.isDigit = false)
    (h2 : (isHex c = false ∧ c ≠ ':') ∨ ∃ d u, t = d :: u ∧ isHex d = false ∧ c ≠ ':' ∧ d ≠ ':') (hc : isSpace c = false) :
    alt (skip (pat ip4Re)) (skip (pat ip6Re)) (c :: t) = .fail := by
  rw [alt_fail]
  · show pat ip6Re (List.dropWhile _ _) = _
    rw [drop_proper hc]
    apply pat_fail
    rcases h2 with ⟨h2, h3⟩ | ⟨d, u, rfl, h2, h3, h4⟩
    · simp [ip6Re, Re.run, starRests, h2, Re.chr, h3]
    · by_cases hx : isHex c = true
      · simp [ip6Re, Re.run, starRests, h2, Re.chr, h3, hx, h4]
      · simp [ip6Re, Re.run, starRests, Re.chr, h3, hx]
  · show pat ip4Re (List.dropWhile _ _) = _
    rw [drop_proper hc]
    apply pat_fail
    exact ip4Re_fail (ds := []) (s := c) (t := t) (by simp) h1 (Or.inl rfl)

theorem network_fail {x : Text} (h : ∀ s ∈ ["ANY4", "ANY6", "ANY", "any4", "any6", "any"], tok g s (x.dropWhile isSpace) = .fail)
    (h2 : alt (skip (pat ip4Re)) (skip (pat ip6Re)) (x.dropWhile isSpace) = .fail) : network g x = .fail := by
  rw [network_eq]
  show alt _ _ (x.dropWhile isSpace) = .fail
  have hi : ∀ t : Text, (t.dropWhile isSpace).dropWhile isSpace = t.dropWhile isSpace := by
    intro t
    induction t with
    | nil => rfl
    | cons c t ih =>
      by_cases hc : isSpace c = true
      · rw [List.dropWhile_cons_of_pos hc]; exact ih
      · have hc : isSpace c = false := by simpa using hc
        rw [drop_proper hc, drop_proper hc]
  have f : ∀ s ∈ ["ANY4", "ANY6", "ANY", "any4", "any6", "any"], ∀ v : Host,
      (do let _ ← key g s; pure v : P Host) (x.dropWhile isSpace) = .fail := by
    intro s hs v
    apply bind_fail
    show tok g s (List.dropWhile _ _) = _
    rw [hi]; exact h s hs
  rw [alt_fail, bind_fail h2]
  simp only [anyKeys, List.map_cons, List.map_nil]
  rw [alts_fail (f _ (by simp) _), alts_fail (f _ (by simp) _), alts_fail (f _ (by simp) _), alts_fail (f _ (by simp) _),
    alts_fail (f _ (by simp) _), alts_fail (f _ (by simp) _)]
  rfl

theorem network_no {ws : List Word} (h : NetStop ws) : Fl (network g) ws := by
  intro t ht
  cases ws with
  | nil =>
    apply network_fail
    · intro s hs
      rw [ht.nil_drop]
      apply tok_not_prefix
      rw [List.prefix_nil]
      revert s; decide
    · rw [ht.nil_drop]
      rw [alt_fail]
      · exact pat_fail (by decide)
      · exact pat_fail (by decide)
  | cons w ws =>
    obtain ⟨t', e, -⟩ := ht.cons_drop
    have kw : ∀ (x : List Char), (∀ s ∈ ["ANY4", "ANY6", "ANY", "any4", "any6", "any"], s.toList.isPrefixOf x = false ∧ x.isPrefixOf s.toList = false) →
        ∀ s ∈ ["ANY4", "ANY6", "ANY", "any4", "any6", "any"], tok g s (x ++ t') = .fail :=
      fun x hx s hs => tok_apart (hx s hs).1 (hx s hs).2
    rcases h w (by simp) with ⟨s, hs, rfl⟩ | ⟨b, rfl⟩
    · simp only [List.mem_cons, List.not_mem_nil, or_false] at hs
      apply network_fail
      · rw [e]
        apply kw
        rcases hs with rfl | rfl | rfl | rfl | rfl | rfl <;> decide +kernel
      · rw [e]
        rcases hs with rfl | rfl | rfl | rfl | rfl | rfl
        · exact pat_address_fail (by decide) (Or.inl (by decide)) (by decide)
        · exact pat_address_fail (by decide) (Or.inl (by decide)) (by decide)
        · exact pat_address_fail (by decide) (Or.inl (by decide)) (by decide)
        · exact pat_address_fail (by decide) (Or.inr ⟨'x', _, rfl, by decide, by decide, by decide⟩) (by decide)
        · exact pat_address_fail (by decide) (Or.inl (by decide)) (by decide)
        · exact pat_address_fail (by decide) (Or.inl (by decide)) (by decide)
    · apply network_fail
      · rw [e]
        intro s hs
        apply tok_not_prefix
        rintro ⟨r, hr⟩
        have : ∀ s ∈ ["ANY4", "ANY6", "ANY", "any4", "any6", "any"], ∃ c u, s.toList = c :: u ∧ c ≠ '/' := by
          intro s hs
          simp only [List.mem_cons, List.not_mem_nil, or_false] at hs
          rcases hs with rfl | rfl | rfl | rfl | rfl | rfl <;> exact ⟨_, _, rfl, by decide⟩
        obtain ⟨c, u, hc, hne⟩ := this s hs
        rw [hc] at hr
        simp [Word.text] at hr
        exact hne hr.1
      · rw [e]
        exact pat_address_fail (by decide) (Or.inl (by decide)) (by decide)

theorem networks_many (hg : NameGuard g) {nets : List Host} {ns more : List Word} (h : NetworkWords nets ns) (hm : NetStop more) :
    Rd (many (network g)) (.ok nets) ns more ∧ NetNext (ns ++ more) := by
  induction h with
  | one h w hw =>
    refine ⟨?_, ?_⟩
    · exact Rd.manyCons (ws := [.network w]) (vs := []) (network_read hg hw hm.next) (by simp) (Rd.manyNil (network_no hm))
    · intro x hx; simp at hx; subst hx; exact Or.inr (Or.inr ⟨w, h, rfl, hw⟩)
  | cons h w hs ws hw _ ih =>
    refine ⟨?_, ?_⟩
    · exact Rd.manyCons (ws := [.network w]) (network_read hg hw ih.2) (by simp) ih.1
    · intro x hx; simp at hx; subst hx; exact Or.inr (Or.inr ⟨w, h, rfl, hw⟩)

theorem net_read (hg : NameGuard g) {nets : List Host} {ns more : List Word} (h : NetworkWords nets ns) (hm : NetStop more) :
    Rd (net g) (.ok (netSem nets)) ns more := by
  apply Rd.skip
  have h1 : Rd (many1 (network g)) (.ok nets) ns more := by
    cases h with
    | one h w hw => exact Rd.many1 (ws := [.network w]) (vs := []) (network_read hg hw hm.next) (Rd.manyNil (network_no hm))
    | cons h w hs ws hw h' =>
      obtain ⟨i1, i2⟩ := networks_many hg h' hm
      exact Rd.many1 (ws := [.network w]) (network_read hg hw i2) i1
  have := Rd.bind (vs := []) (f := fun l => pure (netSem l)) (by simpa using h1) (Rd.pure (netSem nets) more)
  rw [List.append_nil] at this
  exact this

theorem setIp_read (hg : NameGuard g) {d : Dir} {nets : List Host} {ns more : List Word} (h : NetworkWords nets ns) (hm : NetStop more) :
    Rd (setIp g) (.ok (.ip d (netSem nets))) (.key "ip" :: .key (dirWord d) :: ns) more := by
  apply Rd.skip
  refine Rd.bind (ws := [.key "ip"]) (vs := .key (dirWord d) :: ns) (key_read hg (by decide) _) ?_
  refine Rd.bind (ws := [.key (dirWord d)]) (vs := ns) (direction_read hg d _) ?_
  have := Rd.bind (vs := []) (f := fun n => pure (SetObj.ip d n)) (by simpa using net_read hg h hm) (Rd.pure (SetObj.ip d (netSem nets)) more)
  rw [List.append_nil] at this
  exact this

end Acltk.CafText
