import Verif.Lemmas.FwsmReadFile
/-!
# C71, C72: definitions and whole configurations are read as written
-/
namespace Acltk.FwsmText
open Acltk Acltk.Peg Acltk.Lookup Acltk.AclText

/-- **C71.** A command, followed by anything but an indented line: the parser takes exactly its
text, gives exactly the item it stands for and knows afterwards exactly what it knew before and the name
that the command introduces. -/
theorem C71_command_read_as_written (s s' : St) (he : s.env.WF) (hg : NameGuard s.env.guard) (text : List Char) (i : Item)
    (h : Cmd s text [i] s') (rest : List Char) (h1 : rest.head? ≠ some ' ')
    (h2 : ∀ r, rest = '\n' :: r ∨ rest = '\r' :: '\n' :: r → r.head? ≠ some ' ') :
    ∃ i', Same i i' ∧ command s (text ++ rest) = .ok (i', s') rest := by
  have hr : StartOK rest := by
    refine ⟨fun c hc => by rintro rfl; exact h1 hc, ?_⟩
    intro r hr c hc
    rintro rfl
    refine h2 r ?_ hc
    unfold nl at hr
    split at hr
    · cases hr; exact Or.inl rfl
    · cases hr; exact Or.inr rfl
    · cases hr
  obtain ⟨is', hs, st⟩ := cmd_read h he hg hr
  cases hs with
  | cons _ j _ js hij hjs =>
    cases hjs
    cases st with
    | one h1 h2 => exact ⟨j, hij, h1⟩

/-- **C72.** A text made of commands is parsed to the end, and the items are those the commands stand for, one
after the other, where each command may refer to the names introduced in front of it. -/
theorem C72_file_read_as_written (g : Guard) (hg : NameGuard g) (text : List Char) (items : List Item) (s : St)
    (h : File { env := { guard := g } } text items s) (hne : items ≠ []) :
    ∃ items', SameItems items items' ∧ parseFile g text = .ok items' [] := by
  have he : ({ guard := g } : Env).WF := {
    names := by intro p hp; cases hp
    netObjs := by intro p hp; cases hp
    netGroups := by intro p hp; cases hp
    svcObjs := by intro p hp; cases hp
    svcGroups := by intro p hp; cases hp
    portGroups := by intro p hp; cases hp
    icmpGroups := by intro p hp; cases hp
    protoGroups := by intro p hp; cases hp
    timeRanges := by intro p hp; cases hp
    passes := hg.passes
    refuses := hg.refuses }
  obtain ⟨is', hs, hc⟩ := file_read h he hg
  refine ⟨is', hs, ?_⟩
  unfold parseFile
  rw [hc]
  simp only
  rw [if_neg]
  cases hs with
  | nil => exact absurd rfl hne
  | cons => simp

theorem same_symm {i j : Item} (h : Same i j) : Same j i := by
  cases h with
  | rule r r' h1 h2 =>
    refine .rule _ _ (fun k => (h1 k).symm) ?_
    rw [← h2]
  | other => exact .other _

theorem same_trans {i j k : Item} (h : Same i j) (h' : Same j k) : Same i k := by
  cases h with
  | other => exact h'
  | rule r r' h1 h2 =>
    cases h' with
    | other => exact .rule _ _ h1 h2
    | rule _ r'' h3 h4 =>
      refine .rule _ _ (fun k => (h3 k).trans (h1 k)) ?_
      rw [← h2, ← h4]

theorem sameItems_join {a b c : List Item} (h : SameItems a c) (h' : SameItems b c) : SameItems a b := by
  induction h generalizing b with
  | nil => cases h'; exact .nil
  | cons i j is js hij _ ih =>
    cases h' with
    | cons i' _ is' _ h1 h2 => exact .cons _ _ _ _ (same_trans hij (same_symm h1)) (ih h2)

/-- **C72.** What a text stands for is unambiguous. -/
theorem C72_unambiguous (g : Guard) (hg : NameGuard g) (text : List Char) (items items' : List Item) (s s' : St)
    (h : File { env := { guard := g } } text items s) (h' : File { env := { guard := g } } text items' s')
    (hne : items ≠ []) (hne' : items' ≠ []) : SameItems items items' := by
  obtain ⟨is, h1, h2⟩ := C72_file_read_as_written g hg text items s h hne
  obtain ⟨is', h1', h2'⟩ := C72_file_read_as_written g hg text items' s' h' hne'
  rw [h2] at h2'
  cases h2'
  exact sameItems_join h1 h1'

/-! ## a sample -/

theorem tatsuGuard_name : NameGuard tatsuGuard where
  passes := sampleEnv_wf.passes
  refuses := sampleEnv_wf.refuses
  symbols := by
    rintro n t ⟨d, hd, hd'⟩
    unfold tatsuGuard
    cases t with
    | nil => simp
    | cons c t =>
      have : n.toList.all Char.isAlphanum = false := by
        rw [List.all_eq_false]; exact ⟨d, hd, by simp [hd']⟩
      simp [this]

/-- The words with one blank between them, and a line feed. -/
def joined : List String → List Char
  | [] => []
  | [w] => w.toList
  | w :: ws => w.toList ++ (' ' :: joined ws)

theorem joined_spaced : ∀ (w : String) (ws : List String), Spaced (w :: ws) (joined (w :: ws))
  | w, [] => .one w
  | w, v :: ws => .cons w [' '] _ _ (by simp) (by intro c hc; simp at hc; exact Or.inl hc) (joined_spaced v ws)

theorem joined_bare (w : String) (ws : List String) : Bare (w :: ws) (joined (w :: ws) ++ ['\n']) :=
  ⟨_, ['\n'], joined_spaced w ws, Or.inl rfl, rfl⟩

theorem joined_line (w : String) (ws : List String) : Line (w :: ws) (joined (w :: ws) ++ ['\n']) :=
  ⟨_, [], ['\n'], joined_spaced w ws, by intro c hc; simp at hc, Or.inl rfl, rfl⟩

/-- A small configuration: a name, a group that uses it, a rule that uses the group, and its binding. -/
def sampleText : List Char :=
  "ASA Version 9.1\n!\nhostname fw\nname 10.0.0.1 web\nobject network dmz\n subnet 10.1.0.0 255.255.0.0\nobject-group network srv\n description the servers\n network-object host web\n network-object object dmz\naccess-list out remark web only\naccess-list out extended permit tcp any object-group srv eq www\naccess-group out in interface outside\n".toList

/-- The group of the sample. -/
def sampleGroup : Host := .group "srv" [.host ⟨.v4, 0x0a000001⟩, .obj "dmz" [.net ⟨.v4, 0x0a010000, 16⟩]]

/-- The rule of the sample. -/
def sampleFileRule : PRule :=
  { id := "out", extended := "extended", mode := "permit", protocol := .name "tcp", src := ⟨.any, none⟩,
    dst := ⟨sampleGroup, some (.port "eq" "www")⟩ }

/-- The items of the sample. -/
def sampleItems : List Item :=
  [.version "ASA Version 9.1".toList, .nothing, .hostname "fw", .name "web" ⟨.v4, 0x0a000001⟩ none,
   .netObj "dmz" [.net ⟨.v4, 0x0a010000, 16⟩] none none,
   .netGroup "srv" [.host ⟨.v4, 0x0a000001⟩, .obj "dmz" [.net ⟨.v4, 0x0a010000, 16⟩]] (some "the servers".toList),
   .rule { sampleFileRule with remark := ["web only".toList] }, .accessGroup "out" "in" "outside"]

theorem sample_file : ∃ s, File { env := { guard := tatsuGuard } } sampleText sampleItems s := by
  have idw : ∀ {w : String}, (!w.toList.isEmpty && w.toList.all (fun c => c.isAlphanum || c ∈ ['_', '-', '.', '+'])) = true →
      IdWord w := by
    intro w h
    simp only [Bool.and_eq_true, List.all_eq_true, Bool.or_eq_true, decide_eq_true_eq] at h
    exact ⟨by intro e; rw [e] at h; simp at h, h.2⟩
  have idf : Identifier "fw" := ⟨'f', ['w'], by decide, by decide, by decide⟩
  have idb : Identifier "web" := ⟨'w', ['e', 'b'], by decide, by decide, by decide⟩
  have key : ∀ {s s' : St} {t u v : List Char} {is js : List Item}, Cmd s t is s' → v = t ++ u →
      (∃ s'', File s' u js s'') → ∃ s'', File s v (is ++ js) s'' := by
    rintro s s' t u v is js h1 rfl ⟨s'', h2⟩
    exact ⟨s'', .cmd _ _ _ _ _ _ _ h1 h2⟩
  have hf : ∃ s, File { env := { guard := tatsuGuard } }
      (("ASA Version ".toList ++ ("9.1".toList ++ ['\n'])) ++ (("!".toList ++ ([] ++ ['\n'])) ++
        ((joined ["hostname", "fw"] ++ ['\n']) ++ ((joined ["name", "10.0.0.1", "web"] ++ ['\n']) ++
        (((joined ["object", "network", "dmz"] ++ ['\n']) ++ (' ' :: ((joined ["subnet", "10.1.0.0", "255.255.0.0"] ++ ['\n']) ++ []))) ++
        (((joined ["object-group", "network", "srv"] ++ ['\n']) ++
          ((' ' :: ("description".toList ++ ([' '] ++ ("the servers".toList ++ ['\n'])))) ++
           (' ' :: ((joined ["network-object", "host", "web"] ++ ['\n']) ++
            (' ' :: ((joined ["network-object", "object", "dmz"] ++ ['\n']) ++ [])))))) ++
        (((joined ["access-list", "out", "remark"] ++ (' ' :: ("web only".toList ++ '\n' :: []))) ++
          (joined (["access-list", "out", "extended", "permit"] ++ (["tcp"] ++ (["any"] ++ ((["object-group", "srv"] ++ ["eq", "www"]) ++ [])))) ++ ['\n'])) ++
        ((joined ["access-group", "out", "in", "interface", "outside"] ++ ['\n']) ++ []))))))))
      ([.version ("ASA Version ".toList ++ "9.1".toList)] ++ ([.nothing] ++ ([.hostname "fw"] ++ ([.name "web" ⟨.v4, 0x0a000001⟩ none] ++
        ([.netObj "dmz" [.net ⟨.v4, 0x0a010000, 16⟩] none none] ++
        ([.netGroup "srv" [.host ⟨.v4, 0x0a000001⟩, .obj "dmz" [.net ⟨.v4, 0x0a010000, 16⟩]] (some "the servers".toList)] ++
        ([.rule { sampleFileRule with remark := ["web only".toList] }] ++ ([.accessGroup "out" "in" "outside"] ++ [])))))))) s := by
    refine key (.version _ _ (Or.inl rfl) (by decide)) rfl ?_
    refine key (.comment "!" [] (by decide) (by decide)) rfl ?_
    refine key (.hostname "fw" _ idf (joined_bare _ _)) rfl ?_
    refine key (.name "10.0.0.1" "web" ⟨.v4, 0x0a000001⟩ _ (.v4 _ (by decide) (by decide +kernel)) idb (joined_bare _ _)) rfl ?_
    refine key (.netObj "dmz" ["subnet", "10.1.0.0", "255.255.0.0"] _ _ [] [.net ⟨.v4, 0x0a010000, 16⟩] none (idw (by decide +kernel))
      (joined_bare _ _) (.subnet _ _ 0x0a010000 0xffff0000 16 _ (by decide) (by decide +kernel) (by decide) (by decide +kernel)
        (.netmask (by decide) (by decide) (by decide +kernel)) ?_) (joined_bare _ _) .none) rfl ?_
    · obtain ⟨net, h1, h2, h3, h4, h5⟩ := C19_network_denotes "10.1.0.0".toList "255.255.0.0".toList ⟨.v4, 0x0a010000⟩ 16
        (((C64_address_text _).1 _).2 ⟨by decide, by decide +kernel⟩)
        (.netmask rfl (by decide) (by decide +kernel))
      have h6 : mkNetwork "10.1.0.0".toList "255.255.0.0".toList = .ok ⟨.v4, 0x0a010000, 16⟩ := by decide +kernel
      rw [h6] at h1
      cases h1
      exact ⟨h2, h3, h4, h5⟩
    refine key (.netGroup "srv" _ _ _ _ _ (idw (by decide +kernel)) (joined_line _ _) (.some [' '] _ (by simp)
      (by intro c hc; simp at hc; exact Or.inl hc) (by decide) (by decide) (by decide))
      (.cons _ _ _ _ _ (.host "web" _ (.name _ rfl)) (joined_bare _ _)
        (.cons _ _ _ _ _ (.object "dmz" _ rfl) (joined_bare _ _) .nil))) rfl ?_
    refine key (.rule _ _ ["web only".toList] _ sampleFileRule (.cons "out" _ _ _ _ (idw (by decide +kernel)) (joined_spaced _ _)
      (by decide) .nil) (Or.inl (.general "out" "permit" ["tcp"] ["any"] (["object-group", "srv"] ++ ["eq", "www"]) []
        sampleFileRule [] (idw (by decide +kernel)) (by decide) (.code "tcp" (by decide)) (by decide) (by decide) (.host _ _ .any)
        (.port _ _ _ _ (.group "srv" _ rfl) (.op "eq" "www" (by decide) (Or.inl (by decide +kernel)))) ?_ .nil rfl rfl rfl ?_
        rfl rfl rfl)) (joined_line _ _)) rfl ?_
    · rintro ⟨-, w, rest, h, ⟨v, hv⟩ | ⟨v, hv⟩⟩
      · cases hv
      · cases hv
    · exact optionsAre_fold []
    refine key (.accessGroup "out" "in" "outside" _ (idw (by decide +kernel)) (idw (by decide +kernel)) (idw (by decide +kernel))
      (joined_line _ _)) rfl ⟨_, .nil _⟩
  obtain ⟨s, hf⟩ := hf
  refine ⟨s, ?_⟩
  have e1 : ∀ {a b : List Char} {l m : List Item}, a = b → l = m → File { env := { guard := tatsuGuard } } a l s →
      File { env := { guard := tatsuGuard } } b m s := by
    rintro a b l m rfl rfl h; exact h
  exact e1 (by decide +kernel) rfl hf

/-- The hypotheses of C72 hold for the sample, and it is parsed. -/
theorem C72_sample : ∃ items, SameItems sampleItems items ∧ parseFile tatsuGuard sampleText = .ok items [] := by
  obtain ⟨s, h⟩ := sample_file
  exact C72_file_read_as_written tatsuGuard tatsuGuard_name _ _ s h (by simp [sampleItems])

/-- A second configuration: a time range, a service object, a port group, a service group, an interface and ignored
commands. -/
def sampleText2 : List Char :=
  "time-range work\n periodic daily 8:00 to 17:30\n absolute start 08:00 1 January 2020\nobject service https\n service tcp destination eq https\nobject-group service web tcp\n port-object range 8080 8090\nobject-group service all\n service-object object https\n service-object icmp echo\ninterface Vlan1\n nameif inside\n ip address 10.0.0.1 255.0.0.0 standby 10.0.0.2\n no shutdown\ncrypto map m\n set peer 10.0.0.1\nmtu inside 1500\n\n".toList

/-- Its items. -/
def sampleItems2 : List Item :=
  [.timeRange 0 "work" [.periodic ["daily"] ⟨8, 0⟩ none ⟨17, 30⟩, .absolute (some ⟨⟨8, 0⟩, 1, 1, 2020⟩) none],
   .svcObj 1 "https" { protocol := "tcp", dst := some (.port "eq" "https") } none,
   .portGroup 2 "web" "tcp" [.range "8080" "8090"] none,
   .svcGroup 3 "all" [.obj 1, .svc { protocol := "icmp", icmpType := some "echo" }] none,
   .iface { alias := "Vlan1", addresses := [(⟨.v4, 0x0a000001⟩, ⟨.v4, 0x0a000000, 8⟩)], nameif := some "inside" },
   .nothing, .nothing, .nothing]

theorem sample_file2 : ∃ s, File { env := { guard := tatsuGuard } } sampleText2 sampleItems2 s := by
  have idw : ∀ {w : String}, (!w.toList.isEmpty && w.toList.all (fun c => c.isAlphanum || c ∈ ['_', '-', '.', '+'])) = true →
      IdWord w := by
    intro w h
    simp only [Bool.and_eq_true, List.all_eq_true, Bool.or_eq_true, decide_eq_true_eq] at h
    exact ⟨by intro e; rw [e] at h; simp at h, h.2⟩
  have dt : ∀ {s : List Char}, (!s.isEmpty && s.all Char.isDigit) = true → DigitText s := by
    intro s h
    simp only [Bool.and_eq_true, List.all_eq_true] at h
    exact ⟨by intro e; rw [e] at h; simp at h, h.2⟩
  have key : ∀ {s s' : St} {t u v : List Char} {is js : List Item}, Cmd s t is s' → v = t ++ u →
      (∃ s'', File s' u js s'') → ∃ s'', File s v (is ++ js) s'' := by
    rintro s s' t u v is js h1 rfl ⟨s'', h2⟩
    exact ⟨s'', .cmd _ _ _ _ _ _ _ h1 h2⟩
  have hf : ∃ s, File { env := { guard := tatsuGuard } }
      (((joined ["time-range", "work"] ++ ['\n']) ++
          (' ' :: ((joined ["periodic", "daily", "8:00", "to", "17:30"] ++ ['\n']) ++
          (' ' :: ((joined ("absolute" :: (["start", "08:00", "1", "January", "2020"] ++ [])) ++ ['\n']) ++ []))))) ++
        (((joined ["object", "service", "https"] ++ ['\n']) ++
          (' ' :: ((joined ("service" :: "tcp" :: ([] ++ ["destination", "eq", "https"])) ++ ['\n']) ++ []))) ++
        (((joined ["object-group", "service", "web", "tcp"] ++ ['\n']) ++ ([] ++
          (' ' :: ((joined ["port-object", "range", "8080", "8090"] ++ ['\n']) ++ [])))) ++
        (((joined ["object-group", "service", "all"] ++ ['\n']) ++ ([] ++
          (' ' :: ((joined ["service-object", "object", "https"] ++ ['\n']) ++
          (' ' :: ((joined ["service-object", "icmp", "echo"] ++ ['\n']) ++ [])))))) ++
        (((joined ["interface", "Vlan1"] ++ ['\n']) ++
          (' ' :: ((joined ["nameif", "inside"] ++ ['\n']) ++
          (' ' :: ((joined ["ip", "address", "10.0.0.1", "255.0.0.0", "standby", "10.0.0.2"] ++ ['\n']) ++
          (' ' :: (("no".toList ++ (" shutdown".toList ++ ['\n'])) ++ []))))))) ++
        (("crypto".toList ++ (' ' :: ("map m".toList ++ '\n' :: (' ' :: ("set peer 10.0.0.1".toList ++ '\n' :: []))))) ++
        (("mtu".toList ++ (' ' :: ("inside 1500".toList ++ ['\n']))) ++ (['\n'] ++ []))))))))
      ([.timeRange 0 "work" [.periodic ["daily"] ⟨8, 0⟩ none ⟨17, 30⟩, .absolute (some ⟨⟨8, 0⟩, 1, 1, 2020⟩) none]] ++
       ([.svcObj 1 "https" { protocol := "tcp", dst := some (.port "eq" "https") } none] ++
       ([.portGroup 2 "web" "tcp" [.range "8080" "8090"] none] ++
       ([.svcGroup 3 "all" [.obj 1, .svc { protocol := "icmp", icmpType := some "echo" }] none] ++
       ([.iface { alias := "Vlan1", addresses := [(⟨.v4, 0x0a000001⟩, ⟨.v4, 0x0a000000, 8⟩)], nameif := some "inside" }] ++
       ([.nothing] ++ ([.nothing] ++ ([.nothing] ++ [])))))))) s := by
    refine key (.timeRange "work" _ _ _ ⟨by decide, by decide⟩ (joined_bare _ _)
      (.cons _ _ _ _ _ (.period "daily" "8:00" "17:30" _ _ (by decide)
          ⟨"8".toList, "00".toList, by decide, dt (by decide), by decide, dt (by decide), by decide, rfl, by decide, by decide⟩
          ⟨"17".toList, "30".toList, by decide, dt (by decide), by decide, dt (by decide), by decide, rfl, by decide, by decide⟩)
        (joined_bare _ _)
        (.cons _ _ _ _ _ (.absolute ["start", "08:00", "1", "January", "2020"] [] _ _
          (.some _ _ (.mk "08:00" "1" "January" "2020" _ 0 31
            ⟨"08".toList, "00".toList, by decide, dt (by decide), by decide, dt (by decide), by decide, rfl, by decide, by decide⟩
            (dt (by decide)) (by decide) (by decide) (dt (by decide)) (by decide) (by decide) (.long _ (by decide))
            (by decide) (by decide)))
          .none) (joined_bare _ _) .nil))) rfl ?_
    refine key (.svcObj "https" _ _ _ [] _ none (idw (by decide +kernel)) (joined_bare _ _)
      (.ports _ _ (.mk "tcp" [] ["destination", "eq", "https"] none _ (by decide) .none
        (.some _ _ (.op "eq" "https" (by decide) (Or.inl (by decide +kernel)))))) (joined_bare _ _) .none) rfl ?_
    refine key (.portGroup "web" "tcp" _ _ _ none _ (idw (by decide +kernel)) (by decide) (joined_line _ _) .none
      (.cons _ _ _ _ _ (.range "8080" "8090" (Or.inr ⟨dt (by decide +kernel), by decide +kernel, by decide +kernel⟩)
        (Or.inr ⟨dt (by decide +kernel), by decide +kernel, by decide +kernel⟩) (fun _ _ => by decide +kernel)) (joined_bare _ _) .nil)) rfl ?_
    refine key (.svcGroup "all" _ _ _ none _ (idw (by decide +kernel)) (joined_line _ _) .none
      (.cons _ _ _ _ _ (.object "https" 1 rfl) (joined_line _ _)
        (.cons _ _ _ _ _ (.icmp _ _ (.type "icmp" "echo" (by decide) (Or.inl (by decide +kernel)))) (joined_line _ _) .nil))) rfl ?_
    refine key (.interface "Vlan1" _ _ [.nameif "inside", .ip "10.0.0.1" "255.0.0.0", .ignored] _ ⟨by decide, by decide⟩ (joined_bare _ _)
      (.cons _ _ _ _ (.nameif "inside" _ ⟨'i', "nside".toList, by decide, by decide, by decide⟩ (joined_line _ _))
        (.cons _ _ _ _ (.ip "10.0.0.1" "255.0.0.0" "10.0.0.2" 0x0a000001 0xff000000 0x0a000002 _ (by decide) (by decide +kernel) (by decide)
          (by decide +kernel) (by decide) (by decide +kernel) (joined_line _ _))
        (.cons _ _ _ _ (.other "no" " shutdown".toList (kwWord (by decide)) (by decide)
          ⟨by decide, Or.inr (Or.inr ⟨' ', "shutdown".toList, by decide, Or.inl rfl⟩)⟩) .nil))) (by decide +kernel)) rfl ?_
    refine key (.ignored "crypto" .wsIndent _ (by decide +kernel) (by decide)
      (.wsIndent ' ' "map m".toList _ (Or.inl rfl) (by decide) (.cons "set peer 10.0.0.1".toList [] (by decide) .nil))) rfl ?_
    refine key (.ignored "mtu" .ws _ (by decide +kernel) (by decide)
      (.ws ' ' "inside 1500".toList (Or.inl rfl) (by decide))) rfl ?_
    exact key (.blank _ (Or.inl rfl)) rfl ⟨_, .nil _⟩
  obtain ⟨s, hf⟩ := hf
  refine ⟨s, ?_⟩
  have e1 : ∀ {a b : List Char} {l m : List Item}, a = b → l = m → File { env := { guard := tatsuGuard } } a l s →
      File { env := { guard := tatsuGuard } } b m s := by
    rintro a b l m rfl rfl h; exact h
  exact e1 (by decide +kernel) rfl hf

/-- The second sample is parsed. -/
theorem C72_sample2 : ∃ items, SameItems sampleItems2 items ∧ parseFile tatsuGuard sampleText2 = .ok items [] := by
  obtain ⟨s, h⟩ := sample_file2
  exact C72_file_read_as_written tatsuGuard tatsuGuard_name _ _ s h (by simp [sampleItems2])

end Acltk.FwsmText
