import Verif.Model.CafFilter
import Verif.Props.FwsmFile
import Verif.Props.Config
import Verif.Props.Nat
/-!
# C79: the NAT table of a configuration text
-/
namespace Acltk.CafFilter
open Acltk Acltk.Lookup

/-- The command is to be put behind the object NAT entries. -/
def After (n : NatCmd.Nat') : Bool := decide ("after-auto" ∈ n.options ∨ "after-object" ∈ n.options)

/-- The twice NAT entries in front of the object NAT entries, in file order. -/
def section1 (items : List FwsmText.Item) : List NatCmd.Nat' :=
  items.filterMap (fun | .nat n => if After n then none else some n | _ => none)

/-- The object NAT entries, in file order. -/
def section2 (items : List FwsmText.Item) : List NatCmd.Nat' :=
  items.filterMap (fun | .netObj _ _ nat _ => nat | _ => none)

/-- The twice NAT entries behind the object NAT entries, in file order. -/
def section3 (items : List FwsmText.Item) : List NatCmd.Nat' :=
  items.filterMap (fun | .nat n => if After n then some n else none | _ => none)

/-- The entries of a section. -/
def sectionOf (m : Nat) (items : List FwsmText.Item) : List NatCmd.Nat' :=
  if m = 1 then section1 items else if m = 2 then section2 items else if m = 3 then section3 items else []

theorem link_natOf (k : Nat) (i : FwsmText.Item) : Config.natOf (link k i) = match i with
    | .nat n => some (if After n then 3 else 1, k)
    | .netObj _ _ (some _) _ => some (2, k)
    | _ => none := by
  cases i with
  | nat n =>
    simp only [link, Config.natOf, After]
    by_cases h : "after-auto" ∈ n.options ∨ "after-object" ∈ n.options
    · have : (n.options.contains "after-auto" || n.options.contains "after-object") = true := by simpa using h
      simp [h]
    · simp [h]
  | netObj n l nat d => cases nat <;> rfl
  | _ => rfl

theorem number_nat (all items : List FwsmText.Item) (k m : Nat) (h : ∀ j i, items[j]? = some i → all[k + j]? = some i) :
    (Config.natSection m (number k items)).filterMap (natEntry all) = sectionOf m items := by
  induction items generalizing k with
  | nil =>
    have : sectionOf m [] = [] := by simp [sectionOf, section1, section2, section3]
    rw [this]
    rfl
  | cons i is ih =>
    have h0 : all[k]? = some i := by simpa using h 0 i rfl
    have ih' := ih (k + 1) (by
      intro j x hx
      have := h (j + 1) x (by simpa using hx)
      rw [← this]; congr 1; omega)
    have hn := link_natOf k i
    unfold Config.natSection at ih' ⊢
    rw [number, List.filterMap_cons, hn]
    have e1 : sectionOf m (i :: is) = (match i with
        | .nat n => if (if After n then 3 else 1) = m then [n] else []
        | .netObj _ _ (some n) _ => if 2 = m then [n] else []
        | _ => []) ++ sectionOf m is := by
      unfold sectionOf section1 section2 section3
      simp only [List.filterMap_cons]
      cases i with
      | nat n =>
        cases ha : After n
        · by_cases m1 : m = 1
          · subst m1; simp [ha]
          · by_cases m2 : m = 2
            · subst m2; simp [ha]
            · by_cases m3 : m = 3
              · subst m3; simp [ha]
              · simp [ha, m1, m2, m3, Ne.symm m1]
        · by_cases m1 : m = 1
          · subst m1; simp [ha]
          · by_cases m2 : m = 2
            · subst m2; simp [ha]
            · by_cases m3 : m = 3
              · subst m3; simp [ha]
              · simp [ha, m1, m2, m3, Ne.symm m3]
      | netObj n l nat d =>
        cases nat with
        | none => by_cases m1 : m = 1 <;> by_cases m2 : m = 2 <;> by_cases m3 : m = 3 <;> simp [m1, m2, m3]
        | some x =>
          by_cases m1 : m = 1
          · subst m1; simp
          · by_cases m2 : m = 2
            · subst m2; simp
            · by_cases m3 : m = 3
              · subst m3; simp
              · simp [m1, m2, m3, Ne.symm m2]
      | _ => by_cases m1 : m = 1 <;> by_cases m2 : m = 2 <;> by_cases m3 : m = 3 <;> simp [m1, m2, m3]
    rw [e1, ← ih']
    cases i with
    | nat n =>
      have he : natEntry all k = some n := by simp [natEntry, h0]
      by_cases hm : (if After n = true then 3 else 1) = m <;> simp [hm, he]
    | netObj n l nat d =>
      cases nat with
      | none => simp
      | some x =>
        have he : natEntry all k = some x := by simp [natEntry, h0]
        by_cases hm : 2 = m <;> simp [hm, he]
    | _ => simp

theorem same_sections {is js : List FwsmText.Item} (h : FwsmText.SameItems is js) :
    section1 js = section1 is ∧ section2 js = section2 is ∧ section3 js = section3 is := by
  induction h with
  | nil => exact ⟨rfl, rfl, rfl⟩
  | cons i j is js hij _ ih =>
    obtain ⟨h1, h2, h3⟩ := ih
    unfold section1 section2 section3 at *
    cases hij with
    | other => simp only [List.filterMap_cons, h1, h2, h3, and_self]
    | rule r r' _ _ => simp only [List.filterMap_cons, h1, h2, h3, and_self]

/-- **C79**: the NAT table of a configuration text.  The text consists of commands that stand for `items`; the table consists of
the entries of the twice NAT commands without a position, of the entries of the network objects, and of the entries of the twice
NAT commands with a position, each in file order, and nothing else. -/
theorem C79_nat_table (g : Guard) (hg : FwsmText.NameGuard g) (config : List Char) (items : List FwsmText.Item) (s : FwsmText.St)
    (hf : FwsmText.File { env := { guard := g } } config items s) (hne : items ≠ []) :
    natTable g config = some (.ok (section1 items, section2 items, section3 items)) := by
  obtain ⟨items', h3, h4⟩ := FwsmText.C72_file_read_as_written g hg config items s hf hne
  unfold natTable
  rw [h4]
  simp only
  obtain ⟨c1, c2, c3, -⟩ := Config.C38_nat_sections (agName items') (fun _ => []) (number 0 items')
  have hx : ∀ j i, items'[j]? = some i → items'[0 + j]? = some i := by intro j i h; rwa [Nat.zero_add]
  rw [c1, c2, c3, number_nat items' items' 0 1 hx, number_nat items' items' 0 2 hx, number_nat items' items' 0 3 hx]
  obtain ⟨e1, e2, e3⟩ := same_sections h3
  simp only [sectionOf, e1, e2, e3]
  rfl

/-- **C79**: which commands have a position. -/
theorem C79_position (s : FwsmText.St) (ws : List String) (c : NatCmd.Cmd) (hw : FwsmText.TwiceWords s ws c)
    (d : List (String × Option String)) (hd : ∀ o ∈ d, o.1 = "description") (n : NatCmd.Nat')
    (hn : NatCmd.twiceNat { c with options := c.options ++ d } = .ok (some n)) : After n = true ↔ c.pos = true := by
  obtain ⟨-, hc⟩ := NatCmd.C62_twice_nat { c with options := c.options ++ d }
  obtain ⟨ri, mi, -, -, -, -, -, -, -, -, -, -, ho, -⟩ := hc n hn
  cases hw with
  | mk p r m pw sw dw vw os pos src dst svc hp hpw hsw hdw hvw hos =>
    have no : ∀ k, k ∈ ["after-auto", "after-object"] →
        ¬ (k ≠ "description" ∧ k ∈ (os.map (fun o => (o, (none : Option String))) ++ d).map (·.1)) := by
      rintro k hk ⟨h1, h2⟩
      simp only [List.map_append, List.map_map, List.mem_append, List.mem_map, Function.comp] at h2
      rcases h2 with ⟨o, h2, rfl⟩ | ⟨o, h2, rfl⟩
      · have := hos _ h2
        simp only [List.mem_cons, List.not_mem_nil, or_false] at hk
        rcases hk with rfl | rfl <;> exact absurd this (by decide)
      · exact h1 (hd _ h2)
    simp only [After, decide_eq_true_eq]
    rw [ho, ho]
    constructor
    · rintro ((h | ⟨h, -⟩) | (h | ⟨h, -⟩))
      · exact absurd h (no _ (by decide))
      · exact h
      · exact absurd h (no _ (by decide))
      · exact h
    · intro h
      exact Or.inl (Or.inr ⟨h, rfl⟩)


/-! ## a sample -/

open FwsmText AclText in
/-- A configuration with interfaces, object NAT and twice NAT. -/
def natText : List Char :=
  "interface Vlan1\n nameif inside\ninterface Vlan2\n nameif outside\nobject network web\n host 10.0.0.5\n nat (inside,outside) static 192.0.2.5 service tcp 80 8080\nobject service h\n service tcp destination eq https\nnat (inside,outside) after-auto 1 source dynamic any interface\nnat (inside,any) source static web web service h h description the web\n".toList

/-- The network object of the sample. -/
def natHost : Host := .obj "web" [.host ⟨.v4, 0x0a000005⟩]

/-- The service object of the sample. -/
def natService : NatCmd.Svc :=
  { name := some "h", protocol := "tcp", src := none, dst := some (.cond (.port "eq" "https")) }

/-- The entry of the network object: both sides carry the real port (C50). -/
def natAuto : NatCmd.Nat' where
  real := { iface := "inside", src := some (.host natHost), dst := some (.host .any),
            service := some { protocol := "tcp", src := none, dst := some (.word "80") } }
  mapped := { iface := "outside", type := some "static", src := some (.host (.host ⟨.v4, 0xc0000205⟩)), fallback := none,
              dst := some (.host .any), service := some { protocol := "tcp", src := none, dst := some (.word "80") } }
  description := none
  options := ["auto"]

/-- The entry of the first twice NAT command. -/
def natLate : NatCmd.Nat' where
  real := { iface := "inside", src := some (.host .any), dst := none, service := none }
  mapped := { iface := "outside", type := some "dynamic", src := some (.host (.iface "outside")), fallback := none, dst := none,
              service := none }
  description := none
  options := ["after-auto"]

/-- The entry of the second twice NAT command. -/
def natEarly : NatCmd.Nat' where
  real := { iface := "inside", src := some (.host natHost), dst := none, service := some natService }
  mapped := { iface := "any", type := some "static", src := some (.host natHost), fallback := none, dst := none,
              service := some natService }
  description := some "the web"
  options := []

/-- The items of the sample. -/
def natItems : List FwsmText.Item :=
  [.iface { alias := "Vlan1", addresses := [], nameif := some "inside" }, .iface { alias := "Vlan2", addresses := [], nameif := some "outside" },
   .netObj "web" [.host ⟨.v4, 0x0a000005⟩] (some natAuto) none,
   .svcObj 0 "h" { protocol := "tcp", dst := some (.port "eq" "https") } none, .nat natLate, .nat natEarly]

open FwsmText AclText in
theorem nat_file : ∃ s, File { env := { guard := tatsuGuard } } natText natItems s := by
  have idw : ∀ {w : String}, (!w.toList.isEmpty && w.toList.all (fun c => c.isAlphanum || c ∈ ['_', '-', '.', '+'])) = true →
      IdWord w := by
    intro w h
    simp only [Bool.and_eq_true, List.all_eq_true, Bool.or_eq_true, decide_eq_true_eq] at h
    exact ⟨by intro e; rw [e] at h; simp at h, h.2⟩
  have dt : ∀ {s : List Char}, (!s.isEmpty && s.all Char.isDigit) = true → DigitText s := by
    intro s h
    simp only [Bool.and_eq_true, List.all_eq_true] at h
    exact ⟨by intro e; rw [e] at h; simp at h, h.2⟩
  have key : ∀ {s s' : St} {t u v : List Char} {is js : List Item}, Cmd s t is s' → v = t ++ u →
      (∃ s'', File s' u js s'') → ∃ s'', File s v (is ++ js) s'' := by
    rintro s s' t u v is js h1 rfl ⟨s'', h2⟩
    exact ⟨s'', .cmd _ _ _ _ _ _ _ h1 h2⟩
  have pw : ∀ {w : String}, (!w.toList.isEmpty && w.toList.all Char.isDigit) = true → w.toList.length ≤ 4300 → digitValue w.toList ≤ 65535 → PortWord w := by
    intro w h h2 h3
    exact Or.inr ⟨dt h, h2, h3⟩
  have fresh : ∀ {e : Env} {w : String}, dGet e.netObjs w = none → dGet e.netGroups w = none → Fresh e w := by
    intro e w h1 h2
    refine ⟨?_, ?_⟩
    · intro h hk; unfold Known at hk; rw [h1] at hk; cases hk
    · intro h hk; unfold Known at hk; rw [h2] at hk; cases hk
  have plain : ∀ {s : St}, (s.ifaces.all (fun p => !p.1.toList.contains ',' && !p.1.toList.contains ')')) = true → PlainIfaces s := by
    intro s h p hp
    have := List.all_eq_true.1 h p hp
    simpa using this
  have ifw : ∀ {s : St} {w : String} {r : NatCmd.IfRef} (i : Ifc.Intf), dGet s.ifaces w = some i → Apart "any" w →
      ⟨i.alias, i.nameif⟩ = r → IfWord s w r := by
    rintro s w r i h1 h2 rfl
    exact .known w i h1 h2
  have hf : ∃ s, File { env := { guard := tatsuGuard } }
      (((joined ["interface", "Vlan1"] ++ ['\n']) ++ (' ' :: ((joined ["nameif", "inside"] ++ ['\n']) ++ []))) ++
       (((joined ["interface", "Vlan2"] ++ ['\n']) ++ (' ' :: ((joined ["nameif", "outside"] ++ ['\n']) ++ []))) ++
       (((joined ["object", "network", "web"] ++ ['\n']) ++ (' ' :: ((joined ["host", "10.0.0.5"] ++ ['\n']) ++
          (' ' :: ((joined ("nat" :: "(inside,outside)" :: "static" :: (["192.0.2.5"] ++ (["service", "tcp", "80", "8080"] ++ []))) ++ ['\n']) ++ []))))) ++
       (((joined ["object", "service", "h"] ++ ['\n']) ++
          (' ' :: ((joined ("service" :: "tcp" :: ([] ++ ["destination", "eq", "https"])) ++ ['\n']) ++ []))) ++
       ((joined ("nat" :: "(inside,outside)" :: (["after-auto", "1"] ++ (["source", "dynamic", "any", "interface"] ++ ([] ++ ([] ++ []))))) ++ ['\n']) ++
       ((joined (("nat" :: "(inside,any)" :: ([] ++ (["source", "static", "web", "web"] ++ ([] ++ (["service", "h", "h"] ++ []))))) ++ ["description"]) ++
          ([' '] ++ ("the web".toList ++ ['\n']))) ++ []))))))
      ([.iface { alias := "Vlan1", addresses := [], nameif := some "inside" }] ++
       ([.iface { alias := "Vlan2", addresses := [], nameif := some "outside" }] ++
       ([.netObj "web" [.host ⟨.v4, 0x0a000005⟩] (some natAuto) none] ++
       ([.svcObj 0 "h" { protocol := "tcp", dst := some (.port "eq" "https") } none] ++ ([.nat natLate] ++ ([.nat natEarly] ++ [])))))) s := by
    refine key (.interface "Vlan1" _ _ [.nameif "inside"] _ ⟨by decide, by decide⟩ (joined_bare _ _)
      (.cons _ _ _ _ (.nameif "inside" _ ⟨'i', "nside".toList, by decide, by decide, by decide⟩ (joined_line _ _)) .nil)
      (by decide +kernel)) rfl ?_
    refine key (.interface "Vlan2" _ _ [.nameif "outside"] _ ⟨by decide, by decide⟩ (joined_bare _ _)
      (.cons _ _ _ _ (.nameif "outside" _ ⟨'o', "utside".toList, by decide, by decide, by decide⟩ (joined_line _ _)) .nil)
      (by decide +kernel)) rfl ?_
    have ap1 : Apart "any" "inside" := ⟨by decide, by intro c u h; have := congrArg List.head? h; simp at this⟩
    have ap2 : Apart "any" "outside" := ⟨by decide, by intro c u h; have := congrArg List.head? h; simp at this⟩
    refine key (.netObjNat "web" ["host", "10.0.0.5"] _ _ _ _ [] [.host ⟨.v4, 0x0a000005⟩] _ none (idw (by decide +kernel)) (joined_bare _ _)
      (.host _ _ (.v4 _ (by decide) (by decide +kernel))) (joined_bare _ _)
      (.static "(inside,outside)" ⟨"Vlan1", some "inside"⟩ ⟨"Vlan2", some "outside"⟩ ["192.0.2.5"] ["service", "tcp", "80", "8080"] []
        (.host (.host ⟨.v4, 0xc0000205⟩)) none (some (.service "tcp" "80" "8080"))
        ⟨kwWord (by decide), plain (by decide), "inside", "outside", ifw _ rfl ap1 rfl, ifw _ rfl ap2 rfl, by decide⟩
        (.v4 "192.0.2.5" 0xc0000205 [] none (fresh rfl rfl) (by decide) (by decide +kernel) .none)
        (.service "tcp" "80" "8080" (by decide) (pw (by decide) (by decide) (by decide)) (pw (by decide) (by decide) (by decide)))
        (by simp) (by simp)) (joined_line _ _) .none) rfl ?_
    refine key (.svcObj "h" _ _ _ [] _ none (idw (by decide +kernel)) (joined_bare _ _)
      (.ports _ _ (.mk "tcp" [] ["destination", "eq", "https"] none _ (by decide) .none
        (.some _ _ (.op "eq" "https" (by decide) (Or.inl (by decide +kernel)))))) (joined_bare _ _) .none) rfl ?_
    refine key (.nat _ _ natLate _
      (.mk "(inside,outside)" ⟨"Vlan1", some "inside"⟩ ⟨"Vlan2", some "outside"⟩ ["after-auto", "1"] ["source", "dynamic", "any", "interface"]
        [] [] [] true _ none none
        ⟨kwWord (by decide), plain (by decide), "inside", "outside", ifw _ rfl ap1 rfl, ifw _ rfl ap2 rfl, by decide⟩
        (.line "after-auto" "1" (by decide) (dt (by decide)))
        (.dynamic "any" ["interface"] (.host .any) .interface none (.any (fresh rfl rfl))
          (.interface _ (.v4 (fresh rfl rfl))))
        .none .none (by simp)) rfl (joined_line _ _)) rfl ?_
    refine key (.natDescription _ _ natEarly _ [' '] "the web".toList
      (.mk "(inside,any)" ⟨"Vlan1", some "inside"⟩ ⟨"any", none⟩ [] ["source", "static", "web", "web"]
        [] ["service", "h", "h"] [] false _ none (some (natService, natService))
        ⟨kwWord (by decide), plain (by decide), "inside", "any", ifw _ rfl ap1 rfl, .any, by decide⟩
        .none
        (.static "web" ["web"] (.host natHost) (.host natHost) (.name _ _ (.object _ rfl)) (.name _ _ (.object _ rfl)))
        .none (.some "h" "h" _ _ (.mk 0 "h" { protocol := "tcp", dst := some (.port "eq" "https") } rfl rfl) (.mk 0 "h" { protocol := "tcp", dst := some (.port "eq" "https") } rfl rfl)) (by simp))
      (joined_spaced _ _) (by simp) (by intro c hc; simp at hc; exact Or.inl hc) (by decide) (by decide) rfl) rfl ⟨_, .nil _⟩
  obtain ⟨s, hf⟩ := hf
  refine ⟨s, ?_⟩
  have e1 : ∀ {a b : List Char} {l m : List Item}, a = b → l = m → File { env := { guard := tatsuGuard } } a l s →
      File { env := { guard := tatsuGuard } } b m s := by
    rintro a b l m rfl rfl h; exact h
  exact e1 (by decide +kernel) rfl hf

/-- The hypotheses of C79 are met: the NAT table of the sample. -/
theorem C79_sample : natTable tatsuGuard natText = some (.ok ([natEarly], [natAuto], [natLate])) := by
  obtain ⟨s, h⟩ := nat_file
  exact C79_nat_table tatsuGuard FwsmText.tatsuGuard_name _ _ s h (by simp [natItems])

end Acltk.CafFilter
