import Verif.Lemmas.IosReadFile
import Verif.Props.FwsmFile
/-!
# C80: IOS commands and whole IOS configurations are read as written
-/
namespace Acltk.IosText
open Acltk Acltk.Lookup Acltk.Peg Acltk.AclText
open Acltk.FwsmText (St NameGuard tatsuGuard_name joined joined_spaced joined_bare joined_line)

theorem good_new {g : Guard} (hg : NameGuard g) : Good { env := { guard := g } } where
  wf := {
    names := by intro p hp; cases hp
    netObjs := by intro p hp; cases hp
    netGroups := by intro p hp; cases hp
    svcObjs := by intro p hp; cases hp
    svcGroups := by intro p hp; cases hp
    portGroups := by intro p hp; cases hp
    icmpGroups := by intro p hp; cases hp
    protoGroups := by intro p hp; cases hp
    timeRanges := by intro p hp; cases hp
    passes := hg.passes
    refuses := hg.refuses }
  names := rfl
  ifaces := by intro p hp; cases hp
  guard := hg

/-- What the commands in front of a place in the text have left: the state of the parser there. -/
def Reached (g : Guard) (s : St) : Prop := ∃ text items, File { env := { guard := g } } text items s

theorem file_good {s s' : St} {t : List Char} {is : List Item} (h : File s t is s') (hs : Good s) : Good s' := by
  induction h with
  | nil => exact hs
  | cmd s s' s'' t u is js hc _ ih => exact ih (cmd_good hc hs)

/-- **C80.** A command behind any other commands, followed by anything but a blank: the parser takes exactly its text,
gives exactly the item it stands for and knows afterwards exactly what it knew before and what the command introduces. -/
theorem C80_command_read_as_written (g : Guard) (hg : NameGuard g) (s s' : St) (hs : Reached g s) (text : List Char) (i : Item)
    (h : Cmd s text [i] s') (rest : List Char) (hr : rest.head? ≠ some ' ') :
    ∃ i', Same i i' ∧ command s (text ++ rest) = .ok (i', s') rest := by
  obtain ⟨t0, is0, h0⟩ := hs
  obtain ⟨is', hs, st⟩ := cmd_read h (file_good h0 (good_new hg)) (rest := rest) (fun c hc => by rintro rfl; exact hr hc)
  cases hs with
  | cons _ j _ js hij hjs =>
    cases hjs
    cases st with
    | one h1 h2 => exact ⟨j, hij, h1⟩

/-- **C80.** A text made of commands, up to its end or to `line` or `end`, is parsed, and the items are those the commands
stand for, one after the other, where each command may refer to what is introduced in front of it.  Nothing behind
`line` or `end` matters. -/
theorem C80_file_read_as_written (g : Guard) (hg : NameGuard g) (text : List Char) (items : List Item) (s : St)
    (h : File { env := { guard := g } } text items s) (hne : items ≠ []) (e : List Char) (he : Ends e) :
    ∃ items' u, SameItems items items' ∧ parseFile g (text ++ e) = .ok items' u := by
  obtain ⟨is', hs, hc⟩ := file_read h (good_new hg) he
  have hn : is'.isEmpty = false := by
    cases hs with
    | nil => exact absurd rfl hne
    | cons => rfl
  rcases ends_oneOf (good_new hg).wf.guardOk he with ⟨k, u, ho⟩ | rfl
  · refine ⟨is', u, hs, ?_⟩
    unfold parseFile
    rw [hc]
    simp only [hn, Bool.false_eq_true, if_false]
    rw [ho]
  · refine ⟨is', [], hs, ?_⟩
    unfold parseFile
    rw [hc]
    simp only [hn, Bool.false_eq_true, if_false]
    have : oneOf g ["line", "end"] ([] : Text) = .fail :=
      (alt_fail (tok_prefix (by decide))).trans (alt_fail (tok_prefix (by decide)))
    rw [this]
    rfl

theorem sameRule_symm {r r' : IRule} (h : SameRule r r') : SameRule r' r := by
  refine ⟨fun k => (h.1 k).symm, ?_⟩
  rw [← h.2]

theorem sameRule_trans {r r' r'' : IRule} (h : SameRule r r') (h' : SameRule r' r'') : SameRule r r'' := by
  refine ⟨fun k => (h'.1 k).trans (h.1 k), ?_⟩
  rw [← h.2, ← h'.2]

theorem sameRules_symm {l m : List IRule} (h : SameRules l m) : SameRules m l := by
  induction h with
  | nil => exact .nil
  | cons r r' l l' h _ ih => exact .cons _ _ _ _ (sameRule_symm h) ih

theorem sameRules_trans {l m n : List IRule} (h : SameRules l m) (h' : SameRules m n) : SameRules l n := by
  induction h generalizing n with
  | nil => cases h'; exact .nil
  | cons r r' l l' h _ ih =>
    cases h' with
    | cons _ r'' _ l'' h1 h2 => exact .cons _ _ _ _ (sameRule_trans h h1) (ih h2)

theorem same_symm {i j : Item} (h : Same i j) : Same j i := by
  cases h with
  | rule r r' h => exact .rule _ _ (sameRule_symm h)
  | rules l l' h => exact .rules _ _ (sameRules_symm h)
  | other => exact .other _

theorem same_trans {i j k : Item} (h : Same i j) (h' : Same j k) : Same i k := by
  cases h with
  | other => exact h'
  | rule r r' h =>
    cases h' with
    | other => exact .rule _ _ h
    | rule _ r'' h1 => exact .rule _ _ (sameRule_trans h h1)
  | rules _ _ h =>
    cases h' with
    | other => exact .rules _ _ h
    | rules _ r'' h1 => exact .rules _ _ (sameRules_trans h h1)

theorem sameItems_join {a b c : List Item} (h : SameItems a c) (h' : SameItems b c) : SameItems a b := by
  induction h generalizing b with
  | nil => cases h'; exact .nil
  | cons i j is js hij _ ih =>
    cases h' with
    | cons i' _ is' _ h1 h2 => exact .cons _ _ _ _ (same_trans hij (same_symm h1)) (ih h2)

/-- **C80.** What a text stands for is unambiguous, wherever its commands are taken to end. -/
theorem C80_unambiguous (g : Guard) (hg : NameGuard g) (text text' : List Char) (items items' : List Item) (s s' : St)
    (h : File { env := { guard := g } } text items s) (h' : File { env := { guard := g } } text' items' s')
    (hne : items ≠ []) (hne' : items' ≠ []) (e e' : List Char) (he : Ends e) (he' : Ends e') (heq : text ++ e = text' ++ e') :
    SameItems items items' := by
  obtain ⟨is, u, h1, h2⟩ := C80_file_read_as_written g hg text items s h hne e he
  obtain ⟨is', u', h1', h2'⟩ := C80_file_read_as_written g hg text' items' s' h' hne' e' he'
  rw [heq, h2'] at h2
  cases h2
  exact sameItems_join h1 h1'

theorem sameRules_append {a b c d : List IRule} (h : SameRules a b) (h' : SameRules c d) : SameRules (a ++ c) (b ++ d) := by
  induction h with
  | nil => exact h'
  | cons r r' l l' h _ ih => exact .cons _ _ _ _ h ih

theorem sameRules_refl : ∀ l : List IRule, SameRules l l
  | [] => .nil
  | r :: l => .cons _ _ _ _ ⟨fun _ => rfl, rfl⟩ (sameRules_refl l)

theorem same_rulesOf {is js : List Item} (h : SameItems is js) : SameRules (rulesOf is) (rulesOf js) := by
  induction h with
  | nil => exact .nil
  | cons i j is js hij _ ih =>
    cases hij with
    | rule _ _ h => exact .cons _ _ _ _ h ih
    | rules _ _ h => exact sameRules_append h ih
    | other i =>
      cases i with
      | rule r => exact .cons _ _ _ _ ⟨fun _ => rfl, rfl⟩ ih
      | rules l => exact sameRules_append (sameRules_refl l) ih
      | base => exact ih
      | route => exact ih

/-! ## a sample -/

/-- A small configuration with every kind of list. -/
def sampleText : List Char :=
  "version 12.4\nhostname r1\n!\ninterface Vlan1\n ip address 10.0.0.1 255.255.255.0\n ip access-group in1 in\n no shutdown\nobject-group network srv\n host 10.0.0.5\nip access-list extended in1\n remark web only\n 20 permit tcp any object-group srv eq www log\n deny ip 10.0.0.0 0.0.0.255 any\naccess-list 10 remark lan\naccess-list 10 permit 10.0.0.0 0.0.0.255\nipv6 access-list v6\n sequence 10 permit tcp any host 2001:db8::1 eq www\nip route 0.0.0.0 0.0.0.0 10.0.0.254\nip route 10.9.0.0 255.255.0.0 Vlan1\nbanner motd ^Chello^C\nrouter bgp 1\n no synchronization\n".toList

/-- What follows it. -/
def sampleEnd : List Char := "line con 0\n access-class 10 in\nend\n".toList

/-- The interface of the sample. -/
def sampleIface : Ifc.Intf :=
  { alias := "Vlan1", addresses := [(⟨.v4, 0x0a000001⟩, ⟨.v4, 0x0a000000, 24⟩)], accessGroups := [("ip-in", ("in1", "in"))] }

/-- The first rule of the named list. -/
def sampleExt1 : IRule :=
  { id := "in1", extended := some "extended", mode := "permit", protocol := .name "tcp", src := ⟨.any, none⟩,
    dst := ⟨.group "srv" [.host ⟨.v4, 0x0a000005⟩], some (.port "eq" "www")⟩, remark := ["web only".toList],
    options := [("log", none)] }

/-- The second rule of the named list. -/
def sampleExt2 : IRule :=
  { id := "in1", extended := some "extended", mode := "deny", protocol := .name "ip",
    src := ⟨.net ⟨.v4, 0x0a000000, 24⟩, none⟩, dst := ⟨.any, none⟩ }

/-- The rule of the numbered list. -/
def sampleNum : IRule :=
  { id := "10", mode := "permit", protocol := .name "ip", src := ⟨.net ⟨.v4, 0x0a000000, 24⟩, none⟩,
    dst := ⟨.any, none⟩, remark := ["lan".toList] }

/-- The rule of the IPv6 list. -/
def sample6 : IRule :=
  { id := "v6", mode := "permit", protocol := .name "tcp", src := ⟨.any, none⟩,
    dst := ⟨.host ⟨.v6, 0x20010db8000000000000000000000001⟩, some (.port "eq" "www")⟩,
    options := [("sequence", some "10")] }

/-- The items of the sample. -/
def sampleItems : List Item :=
  [.base (.version " 12.4".toList), .base (.hostname "r1"), .base .nothing, .base (.iface sampleIface),
   .base (.netGroup "srv" [.host ⟨.v4, 0x0a000005⟩] none), .rules [sampleExt1, sampleExt2], .rule sampleNum, .rules [sample6],
   .route ⟨⟨.v4, 0, 0⟩, .addr ⟨.v4, 0x0a0000fe⟩⟩, .route ⟨⟨.v4, 0x0a090000, 16⟩, .iface sampleIface⟩,
   .base .nothing, .base .nothing]

theorem sample_net : NetworkOf ⟨.v4, 0x0a000000⟩ 24 ⟨.v4, 0x0a000000, 24⟩ := by
  obtain ⟨net, h1, h2, h3, h4, h5⟩ := C19_network_denotes "10.0.0.0".toList "255.255.255.0".toList ⟨.v4, 0x0a000000⟩ 24
    (((C64_address_text _).1 _).2 ⟨by decide, by decide +kernel⟩) (.netmask rfl (by decide) (by decide +kernel))
  have h6 : mkNetwork "10.0.0.0".toList "255.255.255.0".toList = .ok ⟨.v4, 0x0a000000, 24⟩ := by decide +kernel
  rw [h6] at h1
  cases h1
  exact ⟨h2, h3, h4, h5⟩

theorem sample_net0 : NetworkOf ⟨.v4, 0⟩ 0 ⟨.v4, 0, 0⟩ := by
  obtain ⟨net, h1, h2, h3, h4, h5⟩ := C19_network_denotes "0.0.0.0".toList "0.0.0.0".toList ⟨.v4, 0⟩ 0
    (((C64_address_text _).1 _).2 ⟨by decide, by decide +kernel⟩) (.netmask rfl (by decide) (by decide +kernel))
  have h6 : mkNetwork "0.0.0.0".toList "0.0.0.0".toList = .ok ⟨.v4, 0, 0⟩ := by decide +kernel
  rw [h6] at h1
  cases h1
  exact ⟨h2, h3, h4, h5⟩

theorem sample_net16 : NetworkOf ⟨.v4, 0x0a090000⟩ 16 ⟨.v4, 0x0a090000, 16⟩ := by
  obtain ⟨net, h1, h2, h3, h4, h5⟩ := C19_network_denotes "10.9.0.0".toList "255.255.0.0".toList ⟨.v4, 0x0a090000⟩ 16
    (((C64_address_text _).1 _).2 ⟨by decide, by decide +kernel⟩) (.netmask rfl (by decide) (by decide +kernel))
  have h6 : mkNetwork "10.9.0.0".toList "255.255.0.0".toList = .ok ⟨.v4, 0x0a090000, 16⟩ := by decide +kernel
  rw [h6] at h1
  cases h1
  exact ⟨h2, h3, h4, h5⟩

theorem optionsAre_nil : OptionsAre [] [] := fun _ => rfl

theorem optionsAre_one (k : String) (v : Option String) : OptionsAre [(k, v)] [(k, v)] := by
  intro x
  by_cases h : k = x
  · subst h; simp [dGet]
  · simp [dGet, h]

theorem sample_file : ∃ s, File { env := { guard := tatsuGuard } } sampleText sampleItems s := by
  have idw : ∀ {w : String}, (!w.toList.isEmpty && w.toList.all (fun c => c.isAlphanum || c ∈ ['_', '-', '.', '+'])) = true →
      IdWord w := by
    intro w h
    simp only [Bool.and_eq_true, List.all_eq_true, Bool.or_eq_true, decide_eq_true_eq] at h
    exact ⟨by intro e; rw [e] at h; simp at h, h.2⟩
  have dt : ∀ {s : List Char}, (!s.isEmpty && s.all Char.isDigit) = true → DigitText s := by
    intro s h
    simp only [Bool.and_eq_true, List.all_eq_true] at h
    exact ⟨by intro e; rw [e] at h; simp at h, h.2⟩
  have key : ∀ {s s' : St} {t u v : List Char} {is js : List Item}, Cmd s t is s' → v = t ++ u →
      (∃ s'', File s' u js s'') → ∃ s'', File s v (is ++ js) s'' := by
    rintro s s' t u v is js h1 rfl ⟨s'', h2⟩
    exact ⟨s'', .cmd _ _ _ _ _ _ _ h1 h2⟩
  have bl : Blanks [' '] := by intro c hc; simp at hc; exact Or.inl hc
  have mask24 : MaskText .v4 "0.0.0.255".toList 24 := .hostmask rfl (by decide) (by decide) (by decide +kernel)
  have mask24' : MaskText .v4 "255.255.255.0".toList 24 := .netmask rfl (by decide) (by decide +kernel)
  have hf : ∃ s, File { env := { guard := tatsuGuard } }
      (("version".toList ++ (" 12.4".toList ++ ['\n'])) ++
       ((joined ["hostname", "r1"] ++ ['\n']) ++
       (("!".toList ++ ([] ++ ['\n'])) ++
       (((joined ["interface", "Vlan1"] ++ ['\n']) ++
          (' ' :: ((joined ["ip", "address", "10.0.0.1", "255.255.255.0"] ++ ['\n']) ++
          (' ' :: ((joined ["ip", "access-group", "in1", "in"] ++ ['\n']) ++
          (' ' :: (("no".toList ++ (" shutdown".toList ++ ['\n'])) ++ []))))))) ++
       (((joined ["object-group", "network", "srv"] ++ ['\n']) ++ ([] ++
          (' ' :: ((joined ["host", "10.0.0.5"] ++ ['\n']) ++ [])))) ++
       (((joined ["ip", "access-list", "extended", "in1"] ++ ['\n']) ++
          ((' ' :: (joined ["remark"] ++ (' ' :: ("web only".toList ++ '\n' :: [])))) ++
          (' ' :: ((joined (["20"] ++ ("permit" :: (["tcp"] ++ (["any"] ++ ((["object-group", "srv"] ++ ["eq", "www"]) ++ ["log"]))))) ++ ['\n']) ++
          ([] ++ (' ' :: ((joined ([] ++ ("deny" :: (["ip"] ++ (["10.0.0.0", "0.0.0.255"] ++ (["any"] ++ []))))) ++ ['\n']) ++ []))))))) ++
       (((joined ["access-list", "10", "remark"] ++ ([' '] ++ ("lan".toList ++ '\n' :: []))) ++
          (joined ("access-list" :: "10" :: ("permit" :: (["10.0.0.0", "0.0.0.255"] ++ []))) ++ ['\n'])) ++
       (((joined ["ipv6", "access-list", "v6"] ++ ['\n']) ++
          (' ' :: ((joined ("sequence" :: "10" :: "permit" :: (["tcp"] ++ (["any"] ++ ((["host", "2001:db8::1"] ++ ["eq", "www"]) ++ [])))) ++ ['\n']) ++ []))) ++
       ((joined ["ip", "route", "0.0.0.0", "0.0.0.0", "10.0.0.254"] ++ ['\n']) ++
       ((joined ["ip", "route", "10.9.0.0", "255.255.0.0", "Vlan1"] ++ ['\n']) ++
       (("banner".toList ++ ([' '] ++ ("motd".toList ++ ([' '] ++ ('^' :: 'C' :: ("hello".toList ++ ('^' :: 'C' :: ['\n']))))))) ++
       (("router".toList ++ (" bgp 1".toList ++ '\n' :: (' ' :: ("no synchronization".toList ++ '\n' :: [])))) ++ []))))))))))))
      ([.base (.version " 12.4".toList)] ++ ([.base (.hostname "r1")] ++ ([.base .nothing] ++ ([.base (.iface sampleIface)] ++
       ([.base (.netGroup "srv" [.host ⟨.v4, 0x0a000005⟩] none)] ++
       ([.rules [sampleExt1, sampleExt2]] ++ ([.rule sampleNum] ++ ([.rules [sample6]] ++
       ([.route ⟨⟨.v4, 0, 0⟩, .addr ⟨.v4, 0x0a0000fe⟩⟩] ++
       ([.route ⟨⟨.v4, 0x0a090000, 16⟩, .iface sampleIface⟩] ++
       ([.base .nothing] ++ ([.base .nothing] ++ [])))))))))))) s := by
    refine key (.version " 12.4".toList ⟨by decide, Or.inr (Or.inr ⟨' ', "12.4".toList, by decide, Or.inl rfl⟩)⟩) rfl ?_
    refine key (.hostname "r1" _ ⟨'r', ['1'], by decide, by decide, by decide⟩ (joined_bare _ _)) rfl ?_
    refine key (.comment "!" [] (by decide) (by decide)) rfl ?_
    refine key (.interface "Vlan1" _ _ [.ip "10.0.0.1" "255.255.255.0", .ipAccessGroup "in1" "in", .ignored] sampleIface
      ⟨by decide, by decide⟩ (joined_bare _ _)
      (.cons _ _ _ _ (.ip "10.0.0.1" "255.255.255.0" [] 0x0a000001 0xffffff00 _ (by decide) (by decide +kernel) (by decide)
          (by decide +kernel) (Or.inl rfl) (joined_line _ _))
        (.cons _ _ _ _ (.accessGroup "in1" "in" _ (idw (by decide +kernel)) (by decide) (joined_line _ _))
        (.cons _ _ _ _ (.other "no" " shutdown".toList (FwsmText.kwWord (by decide)) (by decide)
          ⟨by decide, Or.inr (Or.inr ⟨' ', "shutdown".toList, by decide, Or.inl rfl⟩)⟩) .nil))) (by decide +kernel)) rfl ?_
    refine key (.netGroup "srv" _ _ _ none _ (idw (by decide +kernel)) (joined_line _ _) .none
      (.cons _ _ _ _ _ (.host "10.0.0.5" ⟨.v4, 0x0a000005⟩ (.v4 _ (by decide) (by decide +kernel))) (.bare _ _ (joined_bare _ _)) .nil)) rfl ?_
    refine key (.extended "in1" _ _ [_, _] (idw (by decide +kernel)) (joined_bare _ _)
      (.cons _ _ _ _ _ _ _ _ (.cons [] _ "web only".toList [] [] .none (joined_spaced _ _) (by decide) .nil)
        (.some "20" (dt (by decide)))
        (.general "permit" ["tcp"] ["any"] (["object-group", "srv"] ++ ["eq", "www"]) ["log"] (.name "tcp") ⟨.any, none⟩
          ⟨.group "srv" [.host ⟨.v4, 0x0a000005⟩], some (.port "eq" "www")⟩ [("log", none)] [("log", none)] (by decide)
          (.code "tcp" (by decide)) (by decide) (by decide) (.host _ _ .any)
          (.port _ _ _ _ (.group "srv" _ rfl) (.op "eq" "www" (by decide) (Or.inl (by decide +kernel)))) ?_ ?_
          (.log "log" (by decide)) (optionsAre_one _ _)) (joined_bare _ _)
        (.cons _ _ _ _ _ _ _ _ .nil .none
          (.general "deny" ["ip"] ["10.0.0.0", "0.0.0.255"] ["any"] [] (.name "ip") ⟨.net ⟨.v4, 0x0a000000, 24⟩, none⟩ ⟨.any, none⟩ [] []
            (by decide) (.code "ip" (by decide)) (by decide) (by decide)
            (.host _ _ (.network "10.0.0.0" "0.0.0.255" 0x0a000000 255 24 _ (by decide) (by decide +kernel) (by decide) (by decide +kernel)
              mask24 sample_net)) (.host _ _ .any) ?_ ?_ .nil optionsAre_nil) (joined_bare _ _) .nil))) rfl ?_
    · rintro ⟨-, w, rest, h, ⟨v, hv⟩ | ⟨v, hv⟩⟩
      · cases hv
      · cases hv
    · rintro ⟨⟨w, x, h, hx, h'⟩, -⟩
      cases h
      obtain ⟨c, t, e, hc⟩ := dotted_head hx
      rw [e] at h'
      cases h'
      exact absurd hc (by decide)
    · rintro ⟨-, w, rest, h, ⟨v, hv⟩ | ⟨v, hv⟩⟩
      · cases hv
      · cases hv
    · rintro ⟨⟨w, x, h, -, h'⟩, -⟩
      cases h
    refine key (.rule _ _ ["lan".toList] _ _ (.cons "10" _ [' '] "lan".toList [] [] (idw (by decide +kernel)) (joined_spaced _ _)
      (by simp) bl (by decide) (by decide) .nil)
      (.standard "10" _ _ ⟨10, by decide, by decide +kernel⟩ (.mk "permit" ["10.0.0.0", "0.0.0.255"] [] (.net ⟨.v4, 0x0a000000, 24⟩) [] []
        (by decide) (.network "10.0.0.0" "0.0.0.255" 0x0a000000 255 24 _ (by decide) (by decide +kernel) (by decide) (by decide +kernel)
              mask24 sample_net) .nil optionsAre_nil)) (joined_bare _ _)) rfl ?_
    refine key (.ipv6List "v6" _ _ [_] (idw (by decide +kernel)) (joined_bare _ _)
      (.cons _ _ _ _ _ (.general "10" "permit" ["tcp"] ["any"] (["host", "2001:db8::1"] ++ ["eq", "www"]) [] (.name "tcp") ⟨.any, none⟩
        ⟨.host ⟨.v6, 0x20010db8000000000000000000000001⟩, some (.port "eq" "www")⟩ [("sequence", some "10")] [] (dt (by decide)) (by decide)
        (.code "tcp" (by decide)) (.host _ _ .any)
        (.port _ _ _ _ (.host "2001:db8::1" 0x20010db8000000000000000000000001 (v6Text_of_parse (by decide +kernel)))
          (.op "eq" "www" (by decide) (Or.inl (by decide +kernel)))) .nil (optionsAre_one _ _)) (joined_bare _ _) .nil)
      (by simp)) rfl ?_
    refine key (.route "0.0.0.0" "0.0.0.0" "10.0.0.254" 0 0 0 _ _ _ (by decide) (by decide +kernel) (by decide) (by decide +kernel)
      (.netmask rfl (by decide) (by decide +kernel)) sample_net0 rfl (.address _ 0x0a0000fe (by decide) (by decide +kernel))
      (joined_bare _ _)) rfl ?_
    refine key (.route "10.9.0.0" "255.255.0.0" "Vlan1" 0x0a090000 0xffff0000 16 _ _ _ (by decide) (by decide +kernel) (by decide)
      (by decide +kernel) (.netmask rfl (by decide) (by decide +kernel)) sample_net16 rfl (.interface _ sampleIface rfl (by decide))
      (joined_bare _ _)) rfl ?_
    refine key (.bannerCaret [' '] [' '] "hello".toList ['\n'] (by simp) bl (by simp) bl (by decide) (Or.inl rfl)) rfl ?_
    exact key (.ignored "router" .eolIndent _ (by decide +kernel) (by decide)
      (.eolIndent " bgp 1".toList _ ⟨by decide, Or.inr (Or.inr ⟨' ', "bgp 1".toList, by decide, Or.inl rfl⟩)⟩
        (.cons "no synchronization".toList [] (by decide) .nil))) rfl ⟨_, .nil _⟩
  obtain ⟨s, hf⟩ := hf
  refine ⟨s, ?_⟩
  have e1 : ∀ {a b : List Char} {l m : List Item}, a = b → l = m → File { env := { guard := tatsuGuard } } a l s →
      File { env := { guard := tatsuGuard } } b m s := by
    rintro a b l m rfl rfl h; exact h
  exact e1 (by decide +kernel) rfl hf

/-- The hypotheses of C80 hold for the sample, and it is parsed: the lines behind `line` are not read. -/
theorem C80_sample : ∃ items u, SameItems sampleItems items ∧ parseFile tatsuGuard (sampleText ++ sampleEnd) = .ok items u := by
  obtain ⟨s, h⟩ := sample_file
  exact C80_file_read_as_written tatsuGuard tatsuGuard_name _ _ s h (by simp [sampleItems]) sampleEnd
    (.word "line" " con 0\n access-class 10 in\nend\n".toList (by decide) ⟨_, Or.inl rfl⟩)

end Acltk.IosText
