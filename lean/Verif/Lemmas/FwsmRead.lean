import Verif.Spec.FwsmFileSpec
import Verif.Lemmas.RangeBlocks
import Verif.Props.AclText
import Verif.Props.Ranges
/-!
# Reading the definitions of a configuration: lines of words
-/
namespace Acltk.FwsmText
open Acltk Acltk.Lookup Acltk.Peg Acltk.AclText

/-- What stands behind a word; with `tr` blanks may stand at the end of the line. -/
def Aft (tr : Bool) (rest : Text) : List String → Text → Prop
  | [], t => ∃ b n, Blanks b ∧ (tr = false → b = []) ∧ (n = ['\n'] ∨ n = ['\r', '\n']) ∧ t = b ++ (n ++ rest)
  | w :: ws, t => ∃ b t', b ≠ [] ∧ Blanks b ∧ t = b ++ (w.toList ++ t') ∧ Aft tr rest ws t'

/-- The text begins with these words. -/
def Sta (tr : Bool) (rest : Text) : List String → Text → Prop
  | [], _ => False
  | w :: ws, t => ∃ t', t = w.toList ++ t' ∧ Aft tr rest ws t'

variable {tr : Bool} {rest : Text}

theorem Aft.after : ∀ {ws : List String} {t : Text}, Aft tr rest ws t → After rest ws t
  | [], _, ⟨b, n, hb, _, hn, h⟩ => ⟨b, n, hb, hn, h⟩
  | _ :: _, _, ⟨b, t', hne, hb, h, h'⟩ => ⟨b, t', hne, hb, h, h'.after⟩

theorem Sta.starts {ws : List String} {t : Text} (h : Sta tr rest ws t) : Starts rest ws t := by
  cases ws with
  | nil => exact h
  | cons w ws => obtain ⟨t', rfl, h'⟩ := h; exact ⟨t', rfl, h'.after⟩

theorem Aft.eow {ws : List String} {t : Text} (h : Aft tr rest ws t) : EndOfWord t := h.after.endOfWord

theorem Aft.blanks {w : String} {wl : List String} {t : Text} (h : Aft tr rest (w :: wl) t) (hw : Word w) :
    ∃ t', ws t = .ok () t' ∧ Sta tr rest (w :: wl) t' := by
  obtain ⟨b, t', hne, hb, rfl, ht⟩ := h
  exact ⟨_, ws_ok hne hb (word_head hw _), t', rfl, ht⟩

theorem nl_ok {n : Text} (hn : n = ['\n'] ∨ n = ['\r', '\n']) : nl (n ++ rest) = .ok () rest := by
  rcases hn with rfl | rfl <;> rfl

theorem Aft.nl {t : Text} (h : Aft false rest [] t) : nl t = .ok () rest := by
  obtain ⟨b, n, -, hb, hn, rfl⟩ := h
  rw [hb rfl]
  exact nl_ok hn

theorem Aft.noWs {t : Text} (h : Aft false rest [] t) : ws t = .fail := by
  obtain ⟨b, n, -, hb, hn, rfl⟩ := h
  rw [hb rfl]
  apply ws_fail
  rcases hn with rfl | rfl <;> (intro c hc; simp at hc; subst hc; decide)

theorem Aft.finish {t : Text} (h : Aft tr rest [] t) {β : Type} (k : P β) :
    (opt ws >>= fun _ => Peg.nl >>= fun _ => k) t = k rest := h.after.finish k

theorem Aft.weaken : ∀ {ws : List String} {t : Text}, Aft false rest ws t → Aft tr rest ws t
  | [], _, ⟨b, n, hb, h0, hn, h⟩ => ⟨b, n, hb, fun _ => h0 rfl, hn, h⟩
  | _ :: _, _, ⟨b, t', hne, hb, h, h'⟩ => ⟨b, t', hne, hb, h, h'.weaken⟩

theorem sta_of_spaced {ws : List String} {t : List Char} (h : Spaced ws t) {b n : Text} (hb : Blanks b)
    (h0 : tr = false → b = []) (hn : n = ['\n'] ∨ n = ['\r', '\n']) : Sta tr rest ws (t ++ (b ++ n) ++ rest) := by
  induction h with
  | one w => exact ⟨_, by simp, b, n, hb, h0, hn, rfl⟩
  | cons w b' ws t hne hb' hs ih =>
    cases ws with
    | nil => cases hs
    | cons w' ws =>
      obtain ⟨t', h1, h2⟩ := ih
      refine ⟨b' ++ (t ++ (b ++ n) ++ rest), by simp, b', t', hne, hb', ?_, h2⟩
      rw [h1]

theorem sta_of_line {ws : List String} {text : List Char} (h : Line ws text) : Sta true rest ws (text ++ rest) := by
  obtain ⟨t, b, n, hs, hb, hn, rfl⟩ := h
  exact sta_of_spaced hs hb (by simp) hn

theorem sta_of_bare {ws : List String} {text : List Char} (h : Bare ws text) : Sta false rest ws (text ++ rest) := by
  obtain ⟨t, n, hs, hn, rfl⟩ := h
  have := sta_of_spaced (tr := false) (rest := rest) hs (b := []) (by intro c hc; simp at hc) (by simp) hn
  simpa using this

/-! ## single steps -/

variable {g : Guard}

theorem tok_self (hg : GuardOk g) {k : String} (hk : (k.toList.all (fun c => !isBlank c)) = true) {t : Text}
    (ht : EndOfWord t) : tok g k (k.toList ++ t) = .ok k t :=
  (tok_word (noBlank_of_decide hk) ht hg.passes).1 rfl

/-- A keyword and the blanks behind it. -/
theorem kw_step (hg : GuardOk g) {k w : String} {wl : List String} {t : Text} (hs : Sta tr rest (k :: w :: wl) t)
    (hk : (k.toList.all (fun c => !isBlank c)) = true) (hw : Word w) :
    ∃ t', Sta tr rest (w :: wl) t' ∧ ∀ {β : Type} (f : String → P β),
      (tok g k >>= fun x => ws >>= fun _ => f x) t = f k t' := by
  obtain ⟨t1, rfl, h1⟩ := hs
  obtain ⟨t2, h2, h3⟩ := h1.blanks hw
  exact ⟨t2, h3, fun f => by rw [bind_ok (tok_self hg hk h1.eow), bind_ok h2]⟩

/-- Another keyword. -/
theorem kw_no (hg : GuardOk g) {w : String} {wl : List String} {t : Text} (hs : Sta tr rest (w :: wl) t) (hw : Word w)
    {k : String} (hk : (k.toList.all (fun c => !isBlank c)) = true) (h : w ≠ k) {β : Type} (f : String → Unit → P β) :
    (tok g k >>= fun x => ws >>= f x) t = .fail := by
  obtain ⟨t1, rfl, h1⟩ := hs
  exact kw_other hg (noBlank_of_decide hk) hw.noBlank h1.eow h

theorem kws_no (hg : GuardOk g) {w : String} {wl : List String} {t : Text} (hs : Sta tr rest (w :: wl) t) (hw : Word w)
    {l : List String} (hl : (l.all (fun k => k.toList.all (fun c => !isBlank c))) = true) (h : w ∉ l) {β : Type}
    (f : String → Unit → P β) : (oneOf g l >>= fun x => ws >>= f x) t = .fail := by
  obtain ⟨t1, rfl, h1⟩ := hs
  exact kws_other hg (kwNoBlank hl) hw.noBlank h1.eow h

theorem tok_no' (hg : GuardOk g) {w : String} {wl : List String} {t : Text} (hs : Sta tr rest (w :: wl) t)
    {k : String} (hk : (k.toList.all (fun c => !isBlank c)) = true) (h : mayMatch w k = false) : tok g k t = .fail := by
  obtain ⟨t1, rfl, h1⟩ := hs
  exact tok_no hg (noBlank_of_decide hk) h1.eow h

theorem Sta.word {w : String} {wl : List String} {t : Text} (h : Sta tr rest (w :: wl) t) :
    ∃ t', t = w.toList ++ t' ∧ EndOfWord t' ∧ Aft tr rest wl t' := by
  obtain ⟨t', rfl, h'⟩ := h
  exact ⟨t', rfl, h'.eow, h'⟩

theorem kwWord {k : String} (h : (!k.toList.isEmpty && k.toList.all (fun c => !isBlank c)) = true) : Word k := word_of_decide h

theorem known_word {β : Type} {d : Dict String β} (hd : ∀ p ∈ d, Word p.1) {n : String} {v : β} (h : Known d n v) : Word n := by
  obtain ⟨p, hp, rfl⟩ := mem_keys h
  exact hd p hp

/-- A reference at the end of a line. -/
theorem refer_end (hg : GuardOk g) {β : Type} {d : Dict String β} (hd : ∀ p ∈ d, Word p.1) {w : String} {v : β}
    (h : Known d w v) {wl : List String} {t : Text} (hs : Sta tr rest (w :: wl) t) :
    ∃ t', refer g wsOrNl d t = .ok v t' ∧ Aft tr rest wl t' := by
  obtain ⟨t1, rfl, he, h1⟩ := hs.word
  exact ⟨t1, refer_known hg hd h he, h1⟩

theorem addrWord_member {e : Env} (he : e.WF) {w : String} {a : Addr} (h : AddrWord e w a) {t : Text} (ht : EndOfWord t) :
    alts [nameWs e, ip4, ip6] (w.toList ++ t) = .ok a t := by
  have hw := h.word he
  cases h with
  | v4 n hn hd =>
    rw [alts_fail (nameWs_fail he hw.noBlank (dotted_no_name he hn hd) ht)]
    obtain ⟨s, u, rfl, hs⟩ := endOfWord_not_digit ht
    rw [hd]
    exact alts_ok (ip4_dotted hn hs)
  | v6 n h6 =>
    rw [alts_fail (nameWs_fail he hw.noBlank (colon_no_name he (v6_chars h6).1) ht), alts_fail (ip4_v6 h6 t)]
    exact alts_ok (ip6_text h6 (endOfWord_not_hex ht))
  | name a hk => exact alts_ok (nameWs_known he hk ht)

theorem ip4_read {n : Nat} (hn : n < 2 ^ 32) {w : String} (hw : w.toList = Dotted n) {t : Text} (ht : EndOfWord t) :
    ip4 (w.toList ++ t) = .ok ⟨.v4, n⟩ t := by
  obtain ⟨s, u, rfl, hs⟩ := endOfWord_not_digit ht
  rw [hw]
  exact ip4_dotted hn hs

theorem addrLit_read {w : String} {a : Addr} (h : AddrLit w a) {t : Text} (ht : EndOfWord t) :
    alt ip4 ip6 (w.toList ++ t) = .ok a t := by
  cases h with
  | v4 n hn hd => exact alt_ok (ip4_read hn hd ht)
  | v6 n h6 =>
    rw [alt_fail (ip4_v6 h6 t)]
    exact ip6_text h6 (endOfWord_not_hex ht)

theorem AddrLit.word {w : String} {a : Addr} (h : AddrLit w a) : Word w := by
  cases h with
  | v4 n hn hw => exact dotted_word hn hw
  | v6 n hw => exact v6_word hw

theorem AddrLit.parse {w : String} {a : Addr} (h : AddrLit w a) : ipAddress w.toList = .ok a := by
  cases h with
  | v4 n hn hd => exact ((C64_address_text _).1 n).2 ⟨hn, hd⟩
  | v6 n h6 => exact ((C64_address_text _).2.1 n).2 h6

theorem AddrLit.valid {w : String} {a : Addr} (h : AddrLit w a) : a.Valid := ipAddress_valid h.parse

theorem v6_valid {s : List Char} {n : Nat} (h : V6Text s n) : (⟨.v6, n⟩ : Addr).Valid :=
  ipAddress_valid (((C64_address_text _).2.1 n).2 h)

/-! ## indented lines -/

/-- What follows is no indented line. -/
def NoSp (rest : Text) : Prop := ∀ c ∈ rest.head?, c ≠ ' '

theorem sp_fail (h : NoSp rest) : sp rest = .fail := by
  cases rest with
  | nil => rfl
  | cons c r =>
    unfold sp
    split
    · rename_i h'; simp at h'; exact absurd h'.1 (h c (by simp))
    · rfl

theorem indented_read {α : Type} {M : List String → α → Prop} {L : List String → List Char → Prop} {p : P α}
    (hp : ∀ ws v l u, M ws v → L ws l → p (l ++ u) = .ok v u) {t : Text} {vs : List α} (h : Members M L t vs)
    (hr : NoSp rest) : indented p (t ++ rest) = .ok vs rest := by
  unfold indented
  induction h with
  | nil => exact many_fail (bind_fail (sp_fail hr))
  | cons ws v l t vs hm hl _ ih =>
    refine many_ok (r := t ++ rest) ?_ (by simp; omega) ih
    show (sp >>= fun _ => p) (' ' :: (l ++ t) ++ rest) = _
    have : ' ' :: (l ++ t) ++ rest = ' ' :: (l ++ (t ++ rest)) := by simp
    rw [this, bind_ok (show sp (' ' :: (l ++ (t ++ rest))) = .ok () (l ++ (t ++ rest)) from rfl)]
    exact hp ws v l _ hm hl

/-- The text is no description line. -/
def NoDescr (g : Guard) (u : Text) : Prop := ∀ v, u = ' ' :: v → tok g "description" v = .fail

theorem NoSp.noDescr (h : NoSp rest) : NoDescr g rest := by
  rintro v rfl
  exact absurd rfl (h ' ' (by simp))

theorem sp_cons (v : Text) : sp (' ' :: v) = .ok () v := rfl

theorem descr_read (hg : GuardOk g) {dt : Text} {d : Option (List Char)} (h : Descr dt d) {u : Text}
    (hu : NoDescr g u) : optDescription g (dt ++ u) = .ok d u := by
  unfold optDescription
  cases h with
  | none =>
    apply opt_fail
    by_cases hs : ∃ v, u = ' ' :: v
    · obtain ⟨v, rfl⟩ := hs
      rw [List.nil_append, bind_ok (sp_cons v)]
      exact bind_fail (hu v rfl)
    · exact bind_fail (sp_fail (rest := u) (by
        intro c hc
        cases u with
        | nil => simp at hc
        | cons x u => simp at hc; subst hc; rintro rfl; exact hs ⟨u, rfl⟩))
  | some b d hne hb hd hn hh =>
    apply opt_ok
    have e : ' ' :: ("description".toList ++ (b ++ (d ++ ['\n']))) ++ u =
        ' ' :: ("description".toList ++ (b ++ (d ++ ('\n' :: u)))) := by simp
    rw [e, bind_ok (sp_cons _)]
    unfold description
    rw [bind_ok (tok_self hg (by decide) (blanks_end hne hb)), bind_ok (ws_ok hne hb (by
      intro c hc
      cases d with
      | nil => exact absurd rfl hd
      | cons x d => simp at hc; subst hc; exact hh _ (by simp)))]
    unfold restOfLine
    rw [bind_ok (pat_plus hd (by intro c hc; simp; rintro rfl; exact hn hc) (by intro c hc; simp at hc; subst hc; decide)),
      bind_ok (show nl ('\n' :: u) = .ok () u from rfl)]
    rfl

/-- Members whose lines begin with given words are no description. -/
theorem members_noDescr {α : Type} {M : List String → α → Prop} {L : List String → List Char → Prop} (hg : GuardOk g)
    (hL : ∀ ws l u, L ws l → Sta true u ws (l ++ u))
    (hM : ∀ ws v, M ws v → ∃ w wl, ws = w :: wl ∧ mayMatch w "description" = false) {t : Text} {vs : List α}
    (h : Members M L t vs) (hr : NoSp rest) : NoDescr g (t ++ rest) := by
  cases h with
  | nil => exact hr.noDescr
  | cons ws v l t vs hm hl _ =>
    rintro u hu
    have hu' : l ++ (t ++ rest) = u := by simpa using hu
    obtain ⟨w, wl, rfl, hmm⟩ := hM ws v hm
    have := hL _ l (t ++ rest) hl
    rw [hu'] at this
    exact tok_no' hg this (by decide) hmm

/-! ## network groups -/

theorem slash_word {w : String} {a m : List Char} (hw : w.toList = a ++ '/' :: m)
    (ha : ∀ c ∈ a, c ∉ [' ', '\t', '\n', '\r']) (hm : ∀ c ∈ m, c.isDigit = true) : Word w := by
  refine ⟨by rw [hw]; simp, ?_⟩
  intro c hc
  rw [hw] at hc
  rcases List.mem_append.1 hc with h | h
  · exact ha c h
  · rcases List.mem_cons.1 h with rfl | h
    · decide
    · intro hb
      have := hm c h
      simp only [List.mem_cons, List.not_mem_nil, or_false] at hb
      rcases hb with rfl | rfl | rfl | rfl <;> revert this <;> decide

theorem v6Slash_word {w : String} {a m : List Char} {x : Nat} (h6 : V6Text a x) (hw : w.toList = a ++ '/' :: m)
    (hm : ∀ c ∈ m, c.isDigit = true) : Word w :=
  slash_word hw (fun c hc => (v6_word (w := String.ofList a) (n := x) (by simpa using h6)).2 c (by simpa using hc)) hm

theorem maskText_ne {v : Ver} {m : List Char} {p : Nat} (h : MaskText v m p) : m ≠ [] := by
  rintro rfl
  cases h with
  | prefixLen h => exact h rfl
  | netmask h _ h3 =>
    rename_i h2
    have := (dotted_no (q := 2 ^ 32 - 2 ^ (32 - p)) (by have := Nat.two_pow_pos (32 - p); omega)).2
    rw [← h3] at this; simp at this
  | hostmask h h1 h2 h3 =>
    have hlt : 2 ^ (32 - p) - 1 < 2 ^ 32 := by
      have : 2 ^ (32 - p) ≤ 2 ^ 32 := Nat.pow_le_pow_right (by decide) (by omega)
      have := Nat.two_pow_pos (32 - p)
      omega
    have := (dotted_no hlt).2
    rw [← h3] at this; simp at this

theorem slash_not_kw {w : String} (h : '/' ∈ w.toList) {k : String} (hk : '/' ∉ k.toList) : w ≠ k := by
  rintro rfl; exact hk h

theorem identifier_not_ip4 {a : String} (hid : Identifier a) (t : Text) : ip4 (a.toList ++ t) = .fail := by
  obtain ⟨c, l, hc, h1, -⟩ := hid
  apply ip4_not_digit
  · rw [hc]
    intro d hd; simp at hd; subst hd
    cases hdd : c.isDigit with
    | false => rfl
    | true =>
      rcases h1 with h1 | rfl
      · rcases digit_cases hdd with rfl | rfl | rfl | rfl | rfl | rfl | rfl | rfl | rfl | rfl <;> revert h1 <;> decide
      · revert hdd; decide
  · rw [hc]; simp

theorem netMember_first {e : Env} {ws : List String} {h : Host} (hm : NetMember e ws h) :
    ∃ w wl, ws = w :: wl ∧ mayMatch w "description" = false := by
  cases hm <;> exact ⟨_, _, rfl, by decide +kernel⟩

theorem networkMember_read {e : Env} (he : e.WF) {ws : List String} {h : Host} (hm : NetMember e ws h) {t : Text}
    (hs : Sta false rest ws t) : networkMember e t = .ok h rest := by
  have hg := he.guardOk
  unfold networkMember
  have wn : Word "network-object" := kwWord (by decide)
  have wh : Word "host" := kwWord (by decide)
  have wo : Word "object" := kwWord (by decide)
  have wg : Word "group-object" := kwWord (by decide)
  cases hm with
  | host w a ha =>
    obtain ⟨t1, s1, f1⟩ := kw_step hg hs (by decide) wh
    obtain ⟨t2, s2, f2⟩ := kw_step hg s1 (by decide) (ha.word he)
    obtain ⟨t3, rfl, e3, s3⟩ := s2.word
    apply alts_ok
    rw [f1, f2, bind_ok (addrWord_member he ha e3), bind_ok s3.nl]
    rfl
  | object w h hk =>
    obtain ⟨t1, s1, f1⟩ := kw_step hg hs (by decide) wo
    obtain ⟨t2, s2, f2⟩ := kw_step hg s1 (by decide) (known_word he.netObjs hk)
    obtain ⟨t3, h3, s3⟩ := refer_end hg he.netObjs hk s2
    rw [alts_fail (by rw [f1]; exact kw_no hg s1 wo (by decide) (by decide) _)]
    apply alts_ok
    rw [f1, f2, bind_ok h3, bind_ok s3.nl]
    rfl
  | masked w m x q p n hx hw hq hmd hmask hn =>
    have ww := dotted_word hx hw
    obtain ⟨t1, s1, f1⟩ := kw_step hg hs (by decide) ww
    have hne : w ∉ ["host", "object"] := by
      intro hin
      obtain ⟨c, u, hc, hd⟩ := dotted_head hx
      rw [← hw] at hc
      simp only [List.mem_cons, List.not_mem_nil, or_false] at hin
      rcases hin with rfl | rfl <;> · cases hc; revert hd; decide
    rw [alts_fail (by rw [f1]; exact kw_no hg s1 ww (by decide) (by rintro rfl; exact hne (by simp)) _),
      alts_fail (by rw [f1]; exact kw_no hg s1 ww (by decide) (by rintro rfl; exact hne (by simp)) _)]
    apply alts_ok
    rw [f1]
    obtain ⟨t2, rfl, e2, s2⟩ := s1.word
    obtain ⟨t3, h3, s3⟩ := s2.blanks (dotted_word hq hmd)
    obtain ⟨t4, rfl, e4, s4⟩ := s3.word
    rw [bind_ok (show alt (nameWs e) ip4 (w.toList ++ t2) = _ from by
        rw [alt_fail (nameWs_fail he ww.noBlank (dotted_no_name he hx hw) e2)]; exact ip4_read hx hw e2),
      bind_ok h3, bind_ok (ip4_read hq hmd e4), bind_ok s4.nl]
    have : (⟨.v4, q⟩ : Addr).text = m.toList := by rw [hmd, dotted_eq hq]; rfl
    rw [this, bind_ok (act_ok (mkNetwork_networkOf (a := ⟨.v4, x⟩) hx hmask hn) _)]
    rfl
  | maskedName w m x q p n hk hx hne hq hmd hmask hn =>
    have ww := known_word (fun p hp => (he.names p hp).word) hk
    obtain ⟨t1, s1, f1⟩ := kw_step hg hs (by decide) ww
    rw [alts_fail (by rw [f1]; exact kw_no hg s1 ww (by decide) (by rintro rfl; exact hne (by simp)) _),
      alts_fail (by rw [f1]; exact kw_no hg s1 ww (by decide) (by rintro rfl; exact hne (by simp)) _)]
    apply alts_ok
    rw [f1]
    obtain ⟨t2, rfl, e2, s2⟩ := s1.word
    obtain ⟨t3, h3, s3⟩ := s2.blanks (dotted_word hq hmd)
    obtain ⟨t4, rfl, e4, s4⟩ := s3.word
    rw [bind_ok (alt_ok (nameWs_known he hk e2)), bind_ok h3, bind_ok (ip4_read hq hmd e4), bind_ok s4.nl]
    have : (⟨.v4, q⟩ : Addr).text = m.toList := by rw [hmd, dotted_eq hq]; rfl
    rw [this, bind_ok (act_ok (mkNetwork_networkOf (a := ⟨.v4, x⟩) hx hmask hn) _)]
    rfl
  | slash w a m x p n h6 hw hmd hmask hn =>
    have ww := v6Slash_word h6 hw hmd
    have hsl : '/' ∈ w.toList := by rw [hw]; simp
    obtain ⟨t1, s1, f1⟩ := kw_step hg hs (by decide) ww
    rw [alts_fail (by rw [f1]; exact kw_no hg s1 ww (by decide) (slash_not_kw hsl (by decide)) _),
      alts_fail (by rw [f1]; exact kw_no hg s1 ww (by decide) (slash_not_kw hsl (by decide)) _)]
    obtain ⟨t2, rfl, e2, s2⟩ := s1.word
    rw [alts_fail (by
      rw [f1]
      apply bind_fail
      rw [alt_fail (nameWs_fail he ww.noBlank (slash_no_name he hsl) e2), hw, List.append_assoc]
      exact ip4_v6 h6 _)]
    apply alts_ok
    rw [f1]
    have ew : w.toList ++ t2 = a ++ '/' :: (m ++ t2) := by rw [hw]; simp
    have a1 : alt (nameSlash e) ip6 (w.toList ++ t2) = .ok ⟨.v6, x⟩ ('/' :: (m ++ t2)) := by
      rw [ew, alt_fail (nameSlash_unknown he (v6_no h6 (by decide)) (colon_no_name he (by
        simpa using (v6_chars h6).1)) _)]
      apply ip6_text h6
      intro c hc; simp at hc; subst hc; decide
    rw [bind_ok a1, bind_ok (show slashP ('/' :: (m ++ t2)) = .ok () (m ++ t2) from rfl),
      bind_ok (intP_digits (maskText_ne hmask) hmd e2), bind_ok s2.nl,
      bind_ok (act_ok (mkNetwork_networkOf (v6_valid h6) hmask hn) _)]
    rfl
  | slashName w a m x p n hk hx hw hmd hmask hn =>
    have hid : Identifier a := by obtain ⟨r, hr, rfl⟩ := mem_keys hk; exact he.names r hr
    have ww := slash_word hw hid.word.2 hmd
    have hsl : '/' ∈ w.toList := by rw [hw]; simp
    obtain ⟨t1, s1, f1⟩ := kw_step hg hs (by decide) ww
    rw [alts_fail (by rw [f1]; exact kw_no hg s1 ww (by decide) (slash_not_kw hsl (by decide)) _),
      alts_fail (by rw [f1]; exact kw_no hg s1 ww (by decide) (slash_not_kw hsl (by decide)) _)]
    obtain ⟨t2, rfl, e2, s2⟩ := s1.word
    rw [alts_fail (by
      rw [f1]
      apply bind_fail
      rw [alt_fail (nameWs_fail he ww.noBlank (slash_no_name he hsl) e2), hw, List.append_assoc]
      exact identifier_not_ip4 hid _)]
    apply alts_ok
    rw [f1]
    have ew : w.toList ++ t2 = a.toList ++ '/' :: (m ++ t2) := by rw [hw]; simp
    have a1 : alt (nameSlash e) ip6 (w.toList ++ t2) = .ok x ('/' :: (m ++ t2)) := by
      rw [ew]; exact alt_ok (nameSlash_known he hk _)
    rw [bind_ok a1, bind_ok (show slashP ('/' :: (m ++ t2)) = .ok () (m ++ t2) from rfl),
      bind_ok (intP_digits (maskText_ne hmask) hmd e2), bind_ok s2.nl,
      bind_ok (act_ok (mkNetwork_networkOf hx hmask hn) _)]
    rfl
  | group w h hk =>
    obtain ⟨t1, s1, f1⟩ := kw_step hg hs (by decide) (known_word he.netGroups hk)
    obtain ⟨t3, h3, s3⟩ := refer_end hg he.netGroups hk s1
    rw [alts_fail (kw_no hg hs wg (by decide) (by decide) _), alts_fail (kw_no hg hs wg (by decide) (by decide) _),
      alts_fail (kw_no hg hs wg (by decide) (by decide) _), alts_fail (kw_no hg hs wg (by decide) (by decide) _)]
    apply alts_ok
    rw [f1, bind_ok h3, bind_ok s3.nl]
    rfl

end Acltk.FwsmText
