import Verif.Nodes.Maths

/-! C86: the nodes that read YAML files (`nodes/file.py`). What YAML makes of the text of a file is left open (`Disk`). -/

set_option autoImplicit false

namespace Verif.Nodes

open Verif.Data
open Verif.BT (BTState Res)

/-! ### The model -/

/-- What opening and parsing a file yields (file.py 74-84). `data none` stands for a value that no output can take (`None` for an
empty file, dates). -/
inductive File
  | data (v : Option Val)
  /-- IOError or YAMLError, with the message (76-78, 82-83). -/
  | bad (msg : String)
  /-- Any other exception, such as UnicodeDecodeError. -/
  | raises

/-- The file system and the installed packages. -/
structure Disk where
  share : String → Option String
  file : String → File

/-- What `load_file` does. -/
inductive Load
  | data (v : Option Val)
  /-- LoadFileError -/
  | error (msg : String)
  /-- Any other exception. -/
  | raises

/-- file.py 74-84 -/
def Disk.load (D : Disk) (f : String) : Load :=
  match D.file f with
  | .data v => .data v
  | .bad m => .error m
  | .raises => .raises

/-- The characters up to the first slash: `s.split("/", 1)[0]`. -/
def upToSlash (s : List Char) : List Char := s.takeWhile (· ≠ '/')

/-- The rest after a prefix, if the string starts with it: `startswith` and slicing. -/
def afterPrefix (p s : String) : Option (List Char) := if p.toList <+: s.toList then some (s.toList.drop p.toList.length) else none

/-- file.py 58-84: `load_file`. An unknown package raises PackageNotFoundError. -/
def loadFile (D : Disk) (path : String) : Load :=
  match afterPrefix "file://" path with
  | some f => D.load (String.ofList f)
  | none =>
    match afterPrefix "package://" path with
    | some r =>
      match D.share (String.ofList (upToSlash r)) with
      | none => .raises
      | some dir => D.load (dir ++ String.ofList (r.drop (upToSlash r).length))
    | none => .error "malformed"

/-- The two classes. -/
inductive YamlKind | list | dict
  deriving DecidableEq

/-- file.py 135-142 (YamlList) and 218-224 (YamlDict): the outputs for the content of a file. An empty list or dictionary is not
true. -/
def contentOutputs : YamlKind → Option Val → List (String × Val) × Bool
  | .list, some (.list (v :: l)) =>
    ([("load_success", .bool true), ("load_error_msg", .str ""), ("content", .list (v :: l)),
      ("line_count", .int (v :: l).length)], true)
  | .dict, some (.dict (p :: l)) =>
    ([("load_success", .bool true), ("load_error_msg", .str ""), ("content", .dict (p :: l))], true)
  | .list, _ => ([("load_success", .bool false), ("load_error_msg", .str "Yaml file should be a list")], false)
  | .dict, _ => ([("load_success", .bool false), ("load_error_msg", .str "Yaml file should be a dict")], false)

/-- file.py 132-145, 215-227: the outputs, and whether loading was a success; `none`: an exception. -/
def loadOutputs (K : YamlKind) : Load → Option (List (String × Val) × Bool)
  | .data v => some (contentOutputs K v)
  | .error m => some ([("load_success", .bool false), ("load_error_msg", .str m)], false)
  | .raises => none

/-- node_config.py 125-133: `set_multiple_values`. -/
def putAll (d : NodeData) : List (String × Val) → BTState → Out
  | [], s => ⟨d, some (.ok s)⟩
  | (k, v) :: l, s =>
    let o := put d k v s
    match o.res with
    | some (.ok _) => putAll o.data l s
    | _ => o

/-- A node: its data and `_cached_result`. -/
structure YamlNode where
  data : NodeData
  cache : Option BTState := none

/-- file.py 115-157, 197-239: `_do_tick`, and the cached result after it. -/
def yamlHook (K : YamlKind) (D : Disk) (cache : Option BTState) (d : NodeData) : Out × Option BTState :=
  match anyUpdated d ["file_path"] with
  | none => (⟨d, some .err⟩, cache)
  | some updated =>
    match if updated then none else cache with
    | some s => (⟨d, some (.ok s)⟩, some s)
    | none =>
      match valueAs asStr d "file_path" with
      | none => (⟨d, some .err⟩, none)
      | some p =>
        match loadOutputs K (loadFile D p) with
        | none => (⟨d, none⟩, none)
        | some (l, ok) =>
          let s : BTState := if ok then .succeeded else .failed
          let o := putAll d l s
          match o.res with
          | some (.ok _) => (o, some s)
          | _ => (o, none)

/-- What happens to a node that is set up and not broken. -/
inductive YamlEv
  /-- A value is delivered to an input. -/
  | deliver (k : String) (v : Val)
  | tick (D : Disk)
  | untick
  | reset

/-- node.py 420-484 with the hook: the node after a tick, and the answer. -/
def YamlNode.tick (K : YamlKind) (D : Disk) (n : YamlNode) : YamlNode × Option Res :=
  let o := Nodes.tick (fun d => (yamlHook K D n.cache d).1) n.data
  (⟨o.data, if n.data.inputs.all (·.2.value.isSome) then
      (yamlHook K D n.cache { n.data with outputs := mapAll Cont.resetUpdated n.data.outputs }).2 else n.cache⟩, o.res)

/-- node.py 555-556 with file.py 159-160, 241-242 -/
def YamlNode.untick (n : YamlNode) : YamlNode := { n with data := { n.data with outputs := mapAll Cont.resetUpdated n.data.outputs } }

/-- node.py 603-609 with file.py 162-164, 244-246 -/
def YamlNode.reset (n : YamlNode) : YamlNode :=
  ⟨{ inputs := mapAll Cont.flagUpdated n.data.inputs
     outputs := mapAll (fun c => c.resetValue.resetUpdated) n.data.outputs }, none⟩

/-- node.py 365-372 with file.py 111-113, 193-195 -/
def YamlNode.setup (n : YamlNode) : YamlNode :=
  ⟨{ inputs := mapAll (fun c => c.resetValue.flagUpdated) n.data.inputs
     outputs := mapAll (fun c => c.resetValue.resetUpdated) n.data.outputs }, none⟩

/-- One event. -/
def YamlNode.step (K : YamlKind) (n : YamlNode) : YamlEv → YamlNode
  | .deliver k v => { n with data := deliver n.data k v }
  | .tick D => (n.tick K D).1
  | .untick => n.untick
  | .reset => n.reset

/-- A history. -/
def YamlNode.run (K : YamlKind) (n : YamlNode) (es : List YamlEv) : YamlNode := es.foldl (YamlNode.step K) n

/-! ### What is wanted -/

/-- The file a URL means. -/
inductive Means (D : Disk) : String → String → Prop
  | file (f : String) : Means D ("file://" ++ f) f
  | package {pkg dir : String} (h : '/' ∉ pkg.toList) (h' : D.share pkg = some dir) (rest : String) :
    Means D ("package://" ++ pkg ++ "/" ++ rest) (dir ++ "/" ++ rest)
  | root {pkg dir : String} (h : '/' ∉ pkg.toList) (h' : D.share pkg = some dir) : Means D ("package://" ++ pkg) dir

/-- The content of a file is what the node is made for. -/
def Good : YamlKind → File → Val → Prop
  | .list, .data (some (.list l)), v => l ≠ [] ∧ v = .list l
  | .dict, .data (some (.dict l)), v => l ≠ [] ∧ v = .dict l
  | _, _, _ => False

/-- The outputs can take whatever the node puts out for the file. -/
structure Able (K : YamlKind) (d : NodeData) (f : File) : Prop where
  flag : ∀ b, Takes d "load_success" (.bool b)
  msg : ∀ m, m.length ≤ 100 → Takes d "load_error_msg" (.str m)
  bad : ∀ m, f = .bad m → Takes d "load_error_msg" (.str m)
  content : ∀ v, Good K f v → Takes d "content" v
  count : ∀ l, K = .list → Good K f (.list l) → Takes d "line_count" (.int l.length)

/-- The node has read the file and says so. -/
def Reads (K : YamlKind) (f : File) (before : NodeData) (o : NodeData × Option Res) : Prop :=
  (∀ v, Good K f v → o.2 = some (.ok .succeeded) ∧ Shows o.1 "load_success" (.bool true) ∧ Shows o.1 "load_error_msg" (.str "") ∧
    Shows o.1 "content" v ∧ (∀ l, v = .list l → Shows o.1 "line_count" (.int l.length))) ∧
  ((∀ v, ¬ Good K f v) → f ≠ .raises → o.2 = some (.ok .failed) ∧ Shows o.1 "load_success" (.bool false) ∧
    (∀ m, f = .bad m → Shows o.1 "load_error_msg" (.str m)) ∧
    outputValue o.1 "content" = outputValue before "content" ∧ outputValue o.1 "line_count" = outputValue before "line_count")

/-- The path the node is given. -/
def pathOf (n : YamlNode) : Option Val := value n.data "file_path"

/-! ### Paths -/

theorem afterPrefix_append (p s : String) : afterPrefix p (p ++ s) = some s.toList := by
  unfold afterPrefix
  rw [if_pos (by rw [String.toList_append]; exact List.prefix_append _ _), String.toList_append, List.drop_left]

theorem takeWhile_slash (a b : List Char) (h : '/' ∉ a) : upToSlash (a ++ '/' :: b) = a := by
  unfold upToSlash
  rw [List.takeWhile_append_of_pos]
  · simp
  · intro c hc
    have : c ≠ '/' := fun he => h (he ▸ hc)
    simpa using this

/-- C86: URLs are understood. -/
theorem c86_url (D : Disk) (p f : String) (h : Means D p f) : loadFile D p = D.load f := by
  cases h with
  | file => simp [loadFile, afterPrefix_append]
  | @package pkg dir hp hs rest =>
    have h1 : afterPrefix "file://" ("package://" ++ pkg ++ "/" ++ rest) = none := by
      unfold afterPrefix
      rw [if_neg]
      rintro ⟨t, ht⟩
      have := congrArg List.head? ht
      simp [String.toList_append] at this
    have h2 : afterPrefix "package://" ("package://" ++ pkg ++ "/" ++ rest) = some (pkg.toList ++ '/' :: rest.toList) := by
      rw [String.append_assoc, String.append_assoc, afterPrefix_append]
      simp [String.toList_append]
    unfold loadFile
    rw [h1, h2]
    dsimp only
    rw [takeWhile_slash _ _ hp, String.ofList_toList, hs, List.drop_left]
    dsimp only
    congr 1
    apply String.toList_injective
    simp [String.toList_append]
  | root hp hs =>
    rename_i pkg
    have h1 : afterPrefix "file://" ("package://" ++ pkg) = none := by
      unfold afterPrefix
      rw [if_neg]
      rintro ⟨t, ht⟩
      have := congrArg List.head? ht
      simp [String.toList_append] at this
    have h3 : upToSlash pkg.toList = pkg.toList := by
      unfold upToSlash
      have := List.takeWhile_append_of_pos (p := (· ≠ '/')) (l₁ := pkg.toList) (l₂ := []) (fun c hc => by
        have : c ≠ '/' := fun he => hp (he ▸ hc)
        simpa using this)
      simpa using this
    unfold loadFile
    rw [h1, afterPrefix_append]
    dsimp only
    rw [h3, String.ofList_toList, hs, List.drop_length]
    simp

theorem afterPrefix_some {p s : String} {l : List Char} (h : afterPrefix p s = some l) : s = p ++ String.ofList l := by
  unfold afterPrefix at h
  split at h
  · rename_i hp
    obtain ⟨t, ht⟩ := hp
    cases h
    apply String.toList_injective
    rw [← ht]
    simp [String.toList_append]
  · cases h

theorem slash_split (r : List Char) : '/' ∉ upToSlash r ∧ (r = upToSlash r ∨ ∃ rest, r = upToSlash r ++ '/' :: rest) := by
  unfold upToSlash
  induction r with
  | nil => simp
  | cons c r ih =>
    by_cases hc : c = '/'
    · subst hc
      simp
    · rw [List.takeWhile_cons_of_pos (by simpa using hc)]
      refine ⟨?_, ?_⟩
      · simp only [List.mem_cons, not_or]
        exact ⟨fun h => hc h.symm, ih.1⟩
      · rcases ih.2 with h | ⟨rest, h⟩
        · exact .inl (by rw [← h])
        · exact .inr ⟨rest, by rw [List.cons_append, ← h]⟩

/-- What is loaded is the file that the URL means. -/
theorem means_of_load {D : Disk} {p : String} {v : Option Val} (h : loadFile D p = .data v) : ∃ f, Means D p f ∧ D.file f = .data v := by
  have ld : ∀ f, D.load f = .data v → D.file f = .data v := by
    intro f hf
    unfold Disk.load at hf
    split at hf <;> cases hf
    assumption
  unfold loadFile at h
  split at h
  · rename_i f hf
    exact ⟨_, afterPrefix_some hf ▸ .file _, ld _ h⟩
  · split at h
    · rename_i r hr
      split at h
      · cases h
      · rename_i dir hd
        refine ⟨_, ?_, ld _ h⟩
        rw [afterPrefix_some hr]
        have hn : '/' ∉ (String.ofList (upToSlash r)).toList := by
          rw [String.toList_ofList]
          exact (slash_split r).1
        rcases (slash_split r).2 with hs | ⟨rest, hs⟩
        · have hdrop : r.drop (upToSlash r).length = [] := by rw [← hs, List.drop_length]
          have h2 := Means.root (D := D) hn hd
          rw [← hs] at h2
          rw [hdrop]
          simpa using h2
        · have hdrop : r.drop (upToSlash r).length = '/' :: rest := by
            conv => lhs; arg 2; rw [hs]
            rw [List.drop_left]
          have h2 := Means.package (D := D) hn hd (String.ofList rest)
          have h3 : String.ofList r = String.ofList (upToSlash r) ++ "/" ++ String.ofList rest := by
            apply String.toList_injective
            conv => lhs; rw [hs]
            simp [String.toList_append]
          have h4 : dir ++ String.ofList ('/' :: rest) = dir ++ "/" ++ String.ofList rest := by
            apply String.toList_injective
            simp [String.toList_append]
          rw [hdrop, h3, h4]
          simpa [String.append_assoc] using h2
    · cases h

/-! ### Outputs -/

theorem takes_put {d : NodeData} {k k' : String} {v v' : Val} {s : BTState} (h : Takes d k v) (h' : Takes d k' v') (hk : k' ≠ k) :
    Takes (put d k v s).data k' v' := by
  obtain ⟨c, h1, h2, h3⟩ := h'
  exact ⟨c, by rw [(put_spec d k v s h).2.2.2 _ hk]; exact h1, h2, h3⟩

theorem putAll_spec (l : List (String × Val)) (s : BTState) : ∀ d : NodeData, (l.map (·.1)).Nodup → (∀ p ∈ l, Takes d p.1 p.2) →
    (putAll d l s).res = some (.ok s) ∧ (∀ p ∈ l, Shows (putAll d l s).data p.1 p.2) ∧ (putAll d l s).data.inputs = d.inputs ∧
      ∀ k, k ∉ l.map (·.1) → (putAll d l s).data.outputs.lookup k = d.outputs.lookup k := by
  induction l with
  | nil => intro d _ _; exact ⟨rfl, by simp, rfl, fun _ _ => rfl⟩
  | cons p l ih =>
    obtain ⟨k, v⟩ := p
    intro d hn ht
    have hk := ht _ (List.mem_cons_self ..)
    have hp := put_spec d k v s hk
    simp only [List.map_cons, List.nodup_cons] at hn
    have hne : ∀ p ∈ l, p.1 ≠ k := fun p hp he => hn.1 (he ▸ List.mem_map_of_mem hp)
    have := ih (put d k v s).data hn.2 (fun p hp => takes_put hk (ht p (List.mem_cons_of_mem _ hp)) (hne p hp))
    unfold putAll
    simp only [hp.1]
    refine ⟨this.1, ?_, this.2.2.1.trans hp.2.2.1, ?_⟩
    · intro p hpm
      rcases List.mem_cons.mp hpm with rfl | hpm
      · obtain ⟨w, h1, h2⟩ := hp.2.1
        refine ⟨w, ?_, h2⟩
        unfold outputValue at *
        rw [this.2.2.2 k hn.1]
        exact h1
      · exact this.2.1 p hpm
    · intro k' hk'
      simp only [List.map_cons, List.mem_cons, not_or] at hk'
      rw [this.2.2.2 k' hk'.2, hp.2.2.2 k' hk'.1]

/-! ### One tick -/

theorem all_of_ready {d : NodeData} (hr : Ready d) : d.inputs.all (·.2.value.isSome) = true := by
  rw [List.all_eq_true]
  intro p hp
  exact Option.isSome_iff_ne_none.mpr (hr p hp)

theorem anyUpdated_one (d : NodeData) (k : String) (c : Cont) (h : d.inputs.lookup k = some c) : anyUpdated d [k] = some c.updated := by
  simp [anyUpdated, h]

/-- A tick that reads the file. -/
theorem reads_of_load (K : YamlKind) (D : Disk) (n : YamlNode) (p f : String) (hr : Ready n.data) (hp : pathOf n = some (.str p))
    (hm : Means D p f) (ha : Able K n.data (D.file f))
    (hu : n.cache = none ∨ ∃ c, n.data.inputs.lookup "file_path" = some c ∧ c.updated = true) :
    Reads K (D.file f) n.data ((n.tick K D).1.data, (n.tick K D).2) := by
  obtain ⟨c, hc, hv⟩ : ∃ c, n.data.inputs.lookup "file_path" = some c ∧ c.value = some (.str p) := by
    simpa [pathOf, value, Option.bind_eq_some_iff] using hp
  have hcache : (if c.updated = true then none else n.cache) = none := by
    rcases hu with h | ⟨c', h, h'⟩
    · simp [h]
    · rw [h] at hc; cases hc; simp [h']
  have hval : valueAs asStr (begun n.data) "file_path" = some p := by simp [valueAs, value, begun, hc, hv, asStr]
  have key : ∀ l s, loadOutputs K (D.load f) = some (l, s) →
      yamlHook K D n.cache (begun n.data) =
        match (putAll (begun n.data) l (if s then .succeeded else .failed)).res with
        | some (.ok _) => (putAll (begun n.data) l (if s then .succeeded else .failed), some (if s then .succeeded else .failed))
        | _ => (putAll (begun n.data) l (if s then .succeeded else .failed), none) := by
    intro l s h
    unfold yamlHook
    rw [anyUpdated_one (begun n.data) _ c (by simpa [begun] using hc)]
    simp only [hcache, hval, c86_url D p f hm, h]
  have main : ∀ l s, loadOutputs K (D.load f) = some (l, s) → (l.map (·.1)).Nodup → (∀ p ∈ l, Takes n.data p.1 p.2) →
      (n.tick K D).2 = some (.ok (if s then .succeeded else .failed)) ∧ (∀ p ∈ l, Shows (n.tick K D).1.data p.1 p.2) ∧
        ∀ k, k ∉ l.map (·.1) → outputValue (n.tick K D).1.data k = outputValue n.data k := by
    intro l s h hn ht
    have h1 := putAll_spec l (if s then .succeeded else .failed) (begun n.data) hn (fun p hp => takes_begun _ _ _ (ht p hp))
    have hk := key l s h
    rw [h1.1] at hk
    dsimp only at hk
    have ht := tick_ok (fun d => (yamlHook K D n.cache d).1) n.data (if s then .succeeded else .failed) hr (by simp only [hk]; exact h1.1)
    rw [hk] at ht
    refine ⟨ht.1, ?_, ?_⟩
    · intro p hp
      obtain ⟨w, hw, hs⟩ := h1.2.1 p hp
      refine ⟨w, ?_, hs⟩
      unfold outputValue at *
      unfold YamlNode.tick
      dsimp only
      rw [ht.2.1]
      exact hw
    · intro k hk
      unfold YamlNode.tick
      dsimp only
      have := h1.2.2.2 k hk
      unfold outputValue
      rw [ht.2.1, this]
      exact outputValue_reset n.data k
  refine ⟨?_, ?_⟩
  · intro v hg
    cases K with
    | list =>
      cases hf : D.file f with
      | bad => rw [hf] at hg; exact hg.elim
      | raises => rw [hf] at hg; exact hg.elim
      | data o =>
        rw [hf] at hg
        match o, hg with
        | some (.list []), hg => exact absurd rfl hg.1
        | some (.list (x :: l)), hg =>
          obtain ⟨_, rfl⟩ := hg
          have hG : Good .list (D.file f) (.list (x :: l)) := by rw [hf]; exact ⟨by simp, rfl⟩
          have := main [("load_success", .bool true), ("load_error_msg", .str ""), ("content", .list (x :: l)),
            ("line_count", .int (x :: l).length)] true (by simp only [Disk.load, hf, loadOutputs, contentOutputs]) (by simp) (by
            intro p hp
            simp only [List.mem_cons, List.not_mem_nil, or_false] at hp
            rcases hp with rfl | rfl | rfl | rfl
            · exact ha.flag _
            · exact ha.msg _ (by decide)
            · exact ha.content _ hG
            · exact ha.count _ rfl hG)
          refine ⟨this.1, this.2.1 ("load_success", _) (by simp), this.2.1 ("load_error_msg", _) (by simp),
            this.2.1 ("content", _) (by simp), ?_⟩
          intro l' hl'
          cases hl'
          exact this.2.1 ("line_count", _) (by simp)
    | dict =>
      cases hf : D.file f with
      | bad => rw [hf] at hg; exact hg.elim
      | raises => rw [hf] at hg; exact hg.elim
      | data o =>
        rw [hf] at hg
        match o, hg with
        | some (.dict []), hg => exact absurd rfl hg.1
        | some (.dict (x :: l)), hg =>
          obtain ⟨_, rfl⟩ := hg
          have hG : Good .dict (D.file f) (.dict (x :: l)) := by rw [hf]; exact ⟨by simp, rfl⟩
          have := main [("load_success", .bool true), ("load_error_msg", .str ""), ("content", .dict (x :: l))] true
            (by simp only [Disk.load, hf, loadOutputs, contentOutputs]) (by simp) (by
            intro p hp
            simp only [List.mem_cons, List.not_mem_nil, or_false] at hp
            rcases hp with rfl | rfl | rfl
            · exact ha.flag _
            · exact ha.msg _ (by decide)
            · exact ha.content _ hG)
          exact ⟨this.1, this.2.1 ("load_success", _) (by simp), this.2.1 ("load_error_msg", _) (by simp),
            this.2.1 ("content", _) (by simp), by intro l' hl'; cases hl'⟩
  · intro hg hnr
    have done : ∀ m, loadOutputs K (D.load f) = some ([("load_success", .bool false), ("load_error_msg", .str m)], false) →
        (∀ m', D.file f = .bad m' → m' = m) → Takes n.data "load_error_msg" (.str m) → (n.tick K D).2 = some (.ok .failed) ∧
        Shows (n.tick K D).1.data "load_success" (.bool false) ∧
        (∀ m, D.file f = .bad m → Shows (n.tick K D).1.data "load_error_msg" (.str m)) ∧
        outputValue (n.tick K D).1.data "content" = outputValue n.data "content" ∧
        outputValue (n.tick K D).1.data "line_count" = outputValue n.data "line_count" := by
      intro m h hm hT
      have := main _ _ h (by simp) (by
        intro p hp
        simp only [List.mem_cons, List.not_mem_nil, or_false] at hp
        rcases hp with rfl | rfl
        · exact ha.flag _
        · exact hT)
      exact ⟨this.1, this.2.1 ("load_success", _) (by simp),
        fun m' h' => by rw [hm m' h']; exact this.2.1 ("load_error_msg", _) (by simp), this.2.2 _ (by simp), this.2.2 _ (by simp)⟩
    cases hf : D.file f with
    | raises => exact absurd hf hnr
    | bad m => exact hf ▸ done m (by simp [Disk.load, hf, loadOutputs]) (by rw [hf]; intro m' h; cases h; rfl) (ha.bad m hf)
    | data o =>
      rw [← hf]
      cases K with
      | list =>
        refine done "Yaml file should be a list" ?_ (by rw [hf]; intro m' h; cases h) (ha.msg _ (by decide))
        simp only [Disk.load, hf, loadOutputs, contentOutputs]
        split
        · exact absurd (by rw [hf]; exact ⟨by simp, rfl⟩) (hg _)
        · contradiction
        · rfl
        · contradiction
      | dict =>
        refine done "Yaml file should be a dict" ?_ (by rw [hf]; intro m' h; cases h) (ha.msg _ (by decide))
        simp only [Disk.load, hf, loadOutputs, contentOutputs]
        split
        · contradiction
        · exact absurd (by rw [hf]; exact ⟨by simp, rfl⟩) (hg _)
        · contradiction
        · rfl

/-! ### Histories -/

/-- No tick is among the events. -/
def NoTick (es : List YamlEv) : Prop := ∀ D, YamlEv.tick D ∉ es

theorem cache_noTick (K : YamlKind) (es : List YamlEv) : ∀ n : YamlNode, NoTick es → n.cache = none → (n.run K es).cache = none := by
  induction es with
  | nil => intro n _ h; exact h
  | cons e es ih =>
    intro n hn h
    refine ih (n.step K e) (fun D hD => hn D (List.mem_cons_of_mem _ hD)) ?_
    cases e with
    | deliver => exact h
    | tick D => exact absurd (List.mem_cons_self ..) (hn D)
    | untick => exact h
    | reset => rfl

/-- C86: the first tick after a setup or reset reads the file. Partial: empty lists and dictionaries, see `c86_empty`. -/
theorem c86_first_partial (K : YamlKind) (D : Disk) (n m : YamlNode) (es : List YamlEv) (p f : String) (hs : n = m.setup ∨ n = m.reset)
    (he : NoTick es) (hr : Ready (n.run K es).data) (hp : pathOf (n.run K es) = some (.str p)) (hm : Means D p f)
    (ha : Able K (n.run K es).data (D.file f)) :
    Reads K (D.file f) (n.run K es).data (((n.run K es).tick K D).1.data, ((n.run K es).tick K D).2) :=
  reads_of_load K D _ p f hr hp hm ha (.inl (cache_noTick K es n he (by rcases hs with rfl | rfl <;> rfl)))

/-- C86: a new path is read. -/
theorem c86_new_path (K : YamlKind) (D : Disk) (n : YamlNode) (p f : String) (c : Cont) (hc : n.data.inputs.lookup "file_path" = some c)
    (hd : c.isStatic = false) (mx : Nat) (op : Option (List String)) (hty : c.ty = .path mx op) (hf : Fits true c.ty (.str p))
    (hne : pathOf n ≠ some (.str p)) (hr : ∀ q ∈ n.data.inputs, q.1 ≠ "file_path" → q.2.value ≠ none)
    (hu : (n.data.inputs.map (·.1)).Nodup) (hm : Means D p f) (ha : Able K n.data (D.file f)) :
    Reads K (D.file f) n.data (((n.step K (.deliver "file_path" (.str p))).tick K D).1.data,
      ((n.step K (.deliver "file_path" (.str p))).tick K D).2) := by
  have hset : (c.set (.str p)).1 = { c with updated := true, value := some (.str p) } := by
    unfold Cont.set Cont.assign
    rw [(check_ok _ _).mpr hf]
    have hcl : clean c.ty (.str p) = .str p := by rw [hty]; rfl
    simp only [hd, Bool.false_and, Bool.false_eq_true, if_false, hcl]
    cases hv : c.value with
    | none => rfl
    | some w =>
      have hpe : pyEq w (.str p) = false := by
        cases w <;> simp [pyEq, pyEq.numEq, Val.num]
        rintro rfl
        exact hne (by simp [pathOf, value, hc, hv])
      simp [hpe]
  have hstep : (n.step K (.deliver "file_path" (.str p))).data =
      { n.data with inputs := modify "file_path" (fun _ => { c with updated := true, value := some (.str p) }) n.data.inputs } := by
    simp only [YamlNode.step, deliver, hc, hset]
  have hlk : (n.step K (.deliver "file_path" (.str p))).data.inputs.lookup "file_path" =
      some { c with updated := true, value := some (.str p) } := by
    rw [hstep]
    simp [lookup_modify, hc]
  have hout : (n.step K (.deliver "file_path" (.str p))).data.outputs = n.data.outputs := by rw [hstep]
  have := reads_of_load K D (n.step K (.deliver "file_path" (.str p))) p f ?_ ?_ hm ?_ (.inr ⟨_, hlk, rfl⟩)
  · simpa only [Reads, outputValue, hout] using this
  · rw [Ready, hstep]
    dsimp only
    clear hset hstep hlk hout hc hne ha
    revert hr hu
    induction n.data.inputs with
    | nil => intro _ _ q hq; simp [Data.modify] at hq
    | cons q l ih =>
      obtain ⟨k, x⟩ := q
      intro hr hu q hq
      simp only [List.map_cons, List.nodup_cons] at hu
      simp only [Data.modify] at hq
      split at hq
      · rename_i hk
        subst hk
        rcases List.mem_cons.mp hq with rfl | hq
        · simp
        · refine hr q (List.mem_cons_of_mem _ hq) (fun he => hu.1 ?_)
          rw [← he]
          exact List.mem_map_of_mem hq
      · rename_i hk
        rcases List.mem_cons.mp hq with rfl | hq
        · exact hr (k, x) (List.mem_cons_self ..) hk
        · exact ih (fun q hq => hr q (List.mem_cons_of_mem _ hq)) hu.2 q hq
  · simp [pathOf, value, hlk]
  · have ht : ∀ k v, Takes n.data k v → Takes (n.step K (.deliver "file_path" (.str p))).data k v := by
      rintro k v ⟨c, h1, h2⟩
      exact ⟨c, by rw [hout]; exact h1, h2⟩
    exact ⟨fun b => ht _ _ (ha.flag b), fun m h => ht _ _ (ha.msg m h), fun m h => ht _ _ (ha.bad m h), fun v h => ht _ _ (ha.content v h),
      fun l h h' => ht _ _ (ha.count l h h')⟩

/-- An event that does not concern the file: the node is stopped, or another input gets a value. -/
def Idle : YamlEv → Prop
  | .untick => True
  | .deliver k _ => k ≠ "file_path"
  | _ => False

theorem outputValue_untick (n : YamlNode) (k : String) : outputValue n.untick.data k = outputValue n.data k := outputValue_reset n.data k

/-- What the cached result is about is kept: the cache, the path and its flag, and the outputs. -/
structure Kept (n n' : YamlNode) : Prop where
  cache : n'.cache = n.cache
  path : n'.data.inputs.lookup "file_path" = n.data.inputs.lookup "file_path"
  out : ∀ k, outputValue n'.data k = outputValue n.data k

theorem kept_idle (K : YamlKind) (n : YamlNode) (e : YamlEv) (h : Idle e) : Kept n (n.step K e) := by
  cases e with
  | tick => exact h.elim
  | reset => exact h.elim
  | untick => exact ⟨rfl, rfl, outputValue_untick n⟩
  | deliver k v =>
    refine ⟨rfl, ?_, ?_⟩
    · simp only [YamlNode.step, deliver]
      split
      · rfl
      · have hk : "file_path" ≠ k := fun e => h e.symm
        simp [lookup_modify, hk]
    · intro k'
      simp only [YamlNode.step, deliver]
      split <;> rfl

theorem kept_trans {a b c : YamlNode} (h : Kept a b) (h' : Kept b c) : Kept a c :=
  ⟨h'.cache.trans h.cache, h'.path.trans h.path, fun k => (h'.out k).trans (h.out k)⟩

theorem kept_run (K : YamlKind) (es : List YamlEv) : ∀ n : YamlNode, (∀ e ∈ es, Idle e) → Kept n (n.run K es) := by
  induction es with
  | nil => intro n _; exact ⟨rfl, rfl, fun _ => rfl⟩
  | cons e es ih =>
    intro n h
    exact kept_trans (kept_idle K n e (h e (List.mem_cons_self ..))) (ih _ (fun e he => h e (List.mem_cons_of_mem _ he)))

theorem put_inputs (d : NodeData) (k : String) (v : Val) (s : BTState) : (put d k v s).data.inputs = d.inputs := by
  unfold put
  split <;> rfl

theorem put_other (d : NodeData) (k k' : String) (v : Val) (s : BTState) (h : k' ≠ k) :
    (put d k v s).data.outputs.lookup k' = d.outputs.lookup k' := by
  unfold put
  split
  · rfl
  · simp [lookup_modify, h]

theorem put_res (d : NodeData) (k : String) (v : Val) (s s' : BTState) (h : (put d k v s).res = some (.ok s')) : s' = s := by
  revert h
  unfold put
  split
  · intro h; cases h
  · dsimp only
    unfold ansRes
    split <;> intro h <;> cases h
    rfl

theorem putAll_inputs (l : List (String × Val)) (s : BTState) : ∀ d : NodeData, (putAll d l s).data.inputs = d.inputs := by
  induction l with
  | nil => intro d; rfl
  | cons p l ih =>
    intro d
    unfold putAll
    dsimp only
    split
    · exact (ih _).trans (put_inputs ..)
    · exact put_inputs ..

theorem putAll_other (l : List (String × Val)) (s : BTState) (k : String) (h : k ∉ l.map (·.1)) :
    ∀ d : NodeData, (putAll d l s).data.outputs.lookup k = d.outputs.lookup k := by
  induction l with
  | nil => intro d; rfl
  | cons p l ih =>
    intro d
    simp only [List.map_cons, List.mem_cons, not_or] at h
    unfold putAll
    dsimp only
    split
    · exact (ih h.2 _).trans (put_other _ _ _ _ _ h.1)
    · exact put_other _ _ _ _ _ h.1

theorem putAll_shows (l : List (String × Val)) (s s' : BTState) (hn : (l.map (·.1)).Nodup) :
    ∀ d : NodeData, (putAll d l s).res = some (.ok s') → s' = s ∧ ∀ p ∈ l, Shows (putAll d l s).data p.1 p.2 := by
  induction l with
  | nil => intro d h; cases h; exact ⟨rfl, by simp⟩
  | cons p l ih =>
    obtain ⟨k, v⟩ := p
    intro d
    simp only [List.map_cons, List.nodup_cons] at hn
    unfold putAll
    dsimp only
    split
    · rename_i s'' hs
      intro h
      have := ih hn.2 _ h
      refine ⟨this.1, fun p hp => ?_⟩
      rcases List.mem_cons.mp hp with rfl | hp
      · obtain ⟨w, h1, h2⟩ := put_shows hs
        refine ⟨w, ?_, h2⟩
        unfold outputValue at *
        rw [putAll_other l s k hn.1]
        exact h1
      · exact this.2 p hp
    · rename_i hno
      intro h
      exact absurd h (hno _)

/-- What the hook does if it answers. -/
theorem hook_cases (K : YamlKind) (D : Disk) (cache : Option BTState) (d : NodeData) (s : BTState)
    (h : (yamlHook K D cache d).1.res = some (.ok s)) :
    (yamlHook K D cache d).2 = some s ∧ (yamlHook K D cache d).1.data.inputs = d.inputs ∧
    ∃ c, d.inputs.lookup "file_path" = some c ∧
      ((c.updated = false ∧ cache = some s ∧ (yamlHook K D cache d).1.data = d) ∨
        ∃ p l ok, c.value = some (.str p) ∧ loadOutputs K (loadFile D p) = some (l, ok) ∧ s = (if ok then .succeeded else .failed) ∧
          (yamlHook K D cache d).1.data = (putAll d l s).data ∧ (putAll d l s).res = some (.ok s)) := by
  unfold yamlHook at h ⊢
  cases hc : d.inputs.lookup "file_path" with
  | none => simp [anyUpdated, hc] at h
  | some c =>
    simp only [anyUpdated_one d _ c hc] at h ⊢
    cases hch : (if c.updated then none else cache) with
    | some s' =>
      simp only [hch] at h ⊢
      cases h
      refine ⟨by simp, by simp, c, by simp, .inl ?_⟩
      cases hu : c.updated with
      | true => simp [hu] at hch
      | false => exact ⟨by simp, by simpa [hu] using hch, by simp⟩
    | none =>
      simp only [hch] at h ⊢
      cases hv : valueAs asStr d "file_path" with
      | none => simp [hv] at h
      | some p =>
        simp only [hv] at h ⊢
        cases hl : loadOutputs K (loadFile D p) with
        | none => simp [hl] at h
        | some o =>
          obtain ⟨l, ok⟩ := o
          simp only [hl] at h ⊢
          have hval : c.value = some (.str p) := by
            simp only [valueAs, value, hc, Option.bind_some, Option.bind_eq_some_iff] at hv
            obtain ⟨w, h1, h2⟩ := hv
            cases w <;> cases h2
            exact h1
          split at h
          · rename_i s' hres
            have hs : s' = if ok then .succeeded else .failed := by
              have : ∀ (l : List (String × Val)) (d : NodeData) (t : BTState), (putAll d l t).res = some (.ok s') → s' = t := by
                intro l
                induction l with
                | nil => intro d t h; cases h; rfl
                | cons q l ih =>
                  intro d t
                  unfold putAll
                  dsimp only
                  split
                  · intro h; exact ih _ _ h
                  · rename_i hno; intro h; exact absurd h (hno _)
              exact this _ _ _ hres
            rw [hres] at h
            cases h
            refine ⟨by rw [hs], putAll_inputs .., c, by simp, .inr ⟨p, l, ok, hval, hl, hs, by rw [hs], ?_⟩⟩
            rw [hs] at hres ⊢
            exact hres
          · rename_i hno
            exact absurd h (hno _)

/-- What a tick does if it answers. -/
theorem tick_cases (K : YamlKind) (D : Disk) (n : YamlNode) (s : BTState) (h : (n.tick K D).2 = some (.ok s)) :
    (n.tick K D).1.cache = some s ∧ (n.tick K D).1.data.inputs = mapAll Cont.resetUpdated n.data.inputs ∧
    ∃ c, n.data.inputs.lookup "file_path" = some c ∧
      ((c.updated = false ∧ n.cache = some s ∧ ∀ k, outputValue (n.tick K D).1.data k = outputValue n.data k) ∨
        ∃ p l ok, c.value = some (.str p) ∧ loadOutputs K (loadFile D p) = some (l, ok) ∧ s = (if ok then .succeeded else .failed) ∧
          ∀ p ∈ l, Shows (n.tick K D).1.data p.1 p.2) := by
  have hk := hook_of_tick (hook := fun d => (yamlHook K D n.cache d).1) h
  have ht := tick_ok (fun d => (yamlHook K D n.cache d).1) n.data s hk.2 hk.1
  have hcache : (n.tick K D).1.cache = (yamlHook K D n.cache (begun n.data)).2 := by
    simp only [YamlNode.tick, all_of_ready hk.2, if_true]
    rfl
  have hin : (n.tick K D).1.data.inputs = mapAll Cont.resetUpdated (yamlHook K D n.cache (begun n.data)).1.data.inputs := ht.2.2
  have hout : (n.tick K D).1.data.outputs = (yamlHook K D n.cache (begun n.data)).1.data.outputs := ht.2.1
  obtain ⟨h1, h2, c, h3, h4⟩ := hook_cases K D n.cache (begun n.data) s hk.1
  refine ⟨hcache.trans h1, hin.trans (by rw [h2]; rfl), c, h3, ?_⟩
  rcases h4 with ⟨h4, h5, h6⟩ | ⟨p, l, ok, h4, h5, h6, h7, h8⟩
  · refine .inl ⟨h4, h5, fun k => ?_⟩
    unfold outputValue
    rw [hout, h6]
    exact outputValue_reset n.data k
  · refine .inr ⟨p, l, ok, h4, h5, h6, fun q hq => ?_⟩
    have hn : (l.map (·.1)).Nodup := by
      revert h5
      cases loadFile D p with
      | raises => intro h; cases h
      | error m => intro h; cases h; simp
      | data v =>
        simp only [loadOutputs, contentOutputs]
        split <;> intro h <;> cases h <;> simp
    obtain ⟨w, h9, h10⟩ := (putAll_shows l s s hn _ h8).2 q hq
    refine ⟨w, ?_, h10⟩
    unfold outputValue at *
    rw [hout, h7]
    exact h9

/-- C86: without a new path the answer and the outputs stay the same, whatever has become of the file. -/
theorem c86_kept (K : YamlKind) (D D' : Disk) (n : YamlNode) (es : List YamlEv) (s : BTState) (h : (n.tick K D).2 = some (.ok s))
    (he : ∀ e ∈ es, Idle e) (hr : Ready ((n.tick K D).1.run K es).data) :
    let m := (n.tick K D).1.run K es
    (m.tick K D').2 = some (.ok s) ∧ ∀ k, outputValue (m.tick K D').1.data k = outputValue (n.tick K D).1.data k := by
  dsimp only
  obtain ⟨h1, h2, c, h3, -⟩ := tick_cases K D n s h
  have hk := kept_run K es (n.tick K D).1 he
  generalize hm : (n.tick K D).1.run K es = m at *
  have hc : m.data.inputs.lookup "file_path" = some c.resetUpdated := by
    rw [hk.path, h2, lookup_mapAll, h3]; rfl
  have hhook : yamlHook K D' m.cache (begun m.data) = (⟨begun m.data, some (.ok s)⟩, some s) := by
    unfold yamlHook
    rw [anyUpdated_one (begun m.data) _ _ hc, hk.cache, h1]
    rfl
  have ht := tick_ok (fun d => (yamlHook K D' m.cache d).1) m.data s hr (by simp only [hhook])
  refine ⟨ht.1, fun k => ?_⟩
  rw [← hk.out k]
  have hout : (m.tick K D').1.data.outputs = (begun m.data).outputs := by
    have := ht.2.1
    rw [hhook] at this
    exact this
  unfold outputValue
  rw [hout]
  exact outputValue_reset m.data k

/-! ### What is shown belongs to the path -/

/-- The node shows what was at its path in one of the `Ds`, and `s` says whether that was good. -/
def Right (K : YamlKind) (Ds : List Disk) (n : YamlNode) (s : BTState) : Prop :=
  ∃ D ∈ Ds, ∃ p, pathOf n = some (.str p) ∧
    ((s = .succeeded ∧ ∃ f v, Means D p f ∧ Good K (D.file f) v ∧ Shows n.data "load_success" (.bool true) ∧ Shows n.data "content" v) ∨
     (s = .failed ∧ (∀ f v, Means D p f → ¬ Good K (D.file f) v) ∧ Shows n.data "load_success" (.bool false)))

/-- The disks at the ticks. -/
def disks : List YamlEv → List Disk
  | [] => []
  | .tick D :: es => D :: disks es
  | _ :: es => disks es

/-- The path is never delivered twice in a row. -/
def CarefulPaths (K : YamlKind) (n : YamlNode) : List YamlEv → Prop
  | [] => True
  | e :: es => (∀ q, e = .deliver "file_path" (.str q) → pathOf n ≠ some (.str q)) ∧ CarefulPaths K (n.step K e) es

/-- The input `file_path` is a path. -/
def PathInput (n : YamlNode) : Prop := ∃ c mx op, n.data.inputs.lookup "file_path" = some c ∧ c.ty = .path mx op

/-- The invariant. -/
def RightInv (K : YamlKind) (Ds : List Disk) (n : YamlNode) : Prop :=
  PathInput n ∧ ∀ s, n.cache = some s → (∃ c, n.data.inputs.lookup "file_path" = some c ∧ c.updated = true) ∨ Right K Ds n s

theorem lookup_keys_inputs {n n' : YamlNode} {g : Cont → Cont} (h : n'.data.inputs = mapAll g n.data.inputs) (hg : ∀ c, (g c).ty = c.ty)
    (hp : PathInput n) : PathInput n' := by
  obtain ⟨c, mx, op, h1, h2⟩ := hp
  exact ⟨g c, mx, op, by rw [h, lookup_mapAll, h1]; rfl, by rw [hg]; exact h2⟩

/-- A tick that does not answer forgets the result or changes nothing. -/
theorem tick_not_ok (K : YamlKind) (D : Disk) (n : YamlNode) (h : ∀ s, (n.tick K D).2 ≠ some (.ok s)) :
    (n.tick K D).1.data.inputs = n.data.inputs ∧
      ((n.tick K D).1.cache = none ∨ ((n.tick K D).1.cache = n.cache ∧ ∀ k, outputValue (n.tick K D).1.data k = outputValue n.data k)) := by
  cases ha : n.data.inputs.all (·.2.value.isSome) with
  | false => simp [YamlNode.tick, Nodes.tick, ha]
  | true =>
    have hh : ∀ s, (yamlHook K D n.cache (begun n.data)).1.res ≠ some (.ok s) := by
      intro s hs
      refine h s (tick_ok (fun d => (yamlHook K D n.cache d).1) n.data s ?_ hs).1
      intro p hp
      exact Option.isSome_iff_ne_none.mp (List.all_eq_true.mp ha p hp)
    have hd : (n.tick K D).1.data = (yamlHook K D n.cache (begun n.data)).1.data := by
      simp only [YamlNode.tick, Nodes.tick, ha, if_true]
      split
      · rename_i s hs; exact absurd hs (hh s)
      · rfl
    have hc : (n.tick K D).1.cache = (yamlHook K D n.cache (begun n.data)).2 := by
      simp only [YamlNode.tick, ha, if_true]
      rfl
    rw [hd, hc]
    clear hd hc h
    revert hh
    have hb : (begun n.data).inputs = n.data.inputs := rfl
    unfold yamlHook
    cases hu : anyUpdated (begun n.data) ["file_path"] with
    | none => intro _; exact ⟨rfl, .inr ⟨rfl, fun k => outputValue_reset n.data k⟩⟩
    | some u =>
      dsimp only
      cases hch : (if u then none else n.cache) with
      | some s' => intro hh; exact absurd rfl (hh s')
      | none =>
        dsimp only
        cases hv : valueAs asStr (begun n.data) "file_path" with
        | none => intro _; exact ⟨rfl, .inl rfl⟩
        | some p =>
          dsimp only
          cases hl : loadOutputs K (loadFile D p) with
          | none => intro _; exact ⟨rfl, .inl rfl⟩
          | some o =>
            obtain ⟨l, ok⟩ := o
            dsimp only
            split
            · rename_i s hs; intro hh; exact absurd hs (hh s)
            · intro _; exact ⟨(putAll_inputs ..).trans hb, .inl rfl⟩

theorem right_kept {K : YamlKind} {Ds : List Disk} {n n' : YamlNode} {s : BTState} (hp : pathOf n' = pathOf n)
    (ho : ∀ k, outputValue n'.data k = outputValue n.data k) (h : Right K Ds n s) : Right K Ds n' s := by
  obtain ⟨D, hD, p, h1, h2⟩ := h
  refine ⟨D, hD, p, hp.trans h1, ?_⟩
  simpa only [Shows, ho] using h2

theorem right_more {K : YamlKind} {Ds Ds' : List Disk} {n : YamlNode} {s : BTState} (h : Right K Ds n s) (hs : ∀ D ∈ Ds, D ∈ Ds') :
    Right K Ds' n s := by
  obtain ⟨D, hD, r⟩ := h
  exact ⟨D, hs D hD, r⟩

theorem means_unique {D : Disk} {p f f' : String} (h : Means D p f) (h' : Means D p f') (v : Option Val) (hf : D.file f = .data v) :
    D.file f' = .data v := by
  have h1 := c86_url D p f h
  rw [c86_url D p f' h'] at h1
  simp only [Disk.load, hf] at h1
  split at h1 <;> cases h1
  assumption

/-- A tick that answers shows what it should. -/
theorem right_tick {K : YamlKind} {Ds : List Disk} {n : YamlNode} (D : Disk) (s : BTState) (hi : RightInv K Ds n)
    (h : (n.tick K D).2 = some (.ok s)) : Right K (D :: Ds) (n.tick K D).1 s := by
  obtain ⟨h1, h2, c, h3, h4⟩ := tick_cases K D n s h
  have hpath : pathOf (n.tick K D).1 = pathOf n := by
    simp only [pathOf, value, h2, lookup_mapAll, h3]
    rfl
  rcases h4 with ⟨h4, h5, h6⟩ | ⟨p, l, ok, h4, h5, h6, h7⟩
  · rcases hi.2 s h5 with ⟨c', h8, h9⟩ | hr
    · rw [h3] at h8; cases h8; rw [h4] at h9; cases h9
    · exact right_more (right_kept hpath h6 hr) (fun _ h => List.mem_cons_of_mem _ h)
  · refine ⟨D, List.mem_cons_self .., p, by rw [hpath]; simp [pathOf, value, h3, h4], ?_⟩
    have bad : ∀ m, l = [("load_success", .bool false), ("load_error_msg", .str m)] → ok = false →
        (∀ f v, Means D p f → ¬ Good K (D.file f) v) → (s = .failed ∧ (∀ f v, Means D p f → ¬ Good K (D.file f) v) ∧
          Shows (n.tick K D).1.data "load_success" (.bool false)) := by
      rintro m rfl rfl hg
      exact ⟨h6, hg, h7 ("load_success", _) (by simp)⟩
    cases hl : loadFile D p with
    | raises => rw [hl] at h5; cases h5
    | error m =>
      rw [hl] at h5
      cases h5
      refine .inr (bad m rfl rfl ?_)
      intro f v hm hg
      rw [c86_url D p f hm] at hl
      cases hf : D.file f with
      | data => simp [Disk.load, hf] at hl
      | bad => rw [hf] at hg; cases K <;> exact hg.elim
      | raises => rw [hf] at hg; cases K <;> exact hg.elim
    | data v =>
      rw [hl] at h5
      obtain ⟨f, hm, hf⟩ := means_of_load hl
      have hg : ∀ f' w, Means D p f' → Good K (D.file f') w → Good K (.data v) w := by
        intro f' w hm' hg
        rw [means_unique hm hm' v hf] at hg
        exact hg
      simp only [loadOutputs, Option.some.injEq] at h5
      unfold contentOutputs at h5
      split at h5
      · rename_i x r
        cases h5
        refine .inl ⟨h6, f, .list (x :: r), hm, ?_, h7 ("load_success", _) (by simp), h7 ("content", _) (by simp)⟩
        rw [hf]
        exact ⟨by simp, rfl⟩
      · rename_i x r
        cases h5
        refine .inl ⟨h6, f, .dict (x :: r), hm, ?_, h7 ("load_success", _) (by simp), h7 ("content", _) (by simp)⟩
        rw [hf]
        exact ⟨by simp, rfl⟩
      · rename_i hno
        cases h5
        refine .inr (bad _ rfl rfl ?_)
        intro f' w hm' hg'
        have := hg f' w hm' hg'
        match v, this, hno with
        | some (.list []), this, _ => exact this.1 rfl
        | some (.list (x :: r)), _, hno => exact hno x r rfl
      · rename_i hno
        cases h5
        refine .inr (bad _ rfl rfl ?_)
        intro f' w hm' hg'
        have := hg f' w hm' hg'
        match v, this, hno with
        | some (.dict []), this, _ => exact this.1 rfl
        | some (.dict (x :: r)), _, hno => exact hno x r rfl

theorem rightInv_step {K : YamlKind} {Ds : List Disk} {n : YamlNode} (e : YamlEv) (hi : RightInv K Ds n)
    (hc : ∀ q, e = .deliver "file_path" (.str q) → pathOf n ≠ some (.str q)) : RightInv K (disks [e] ++ Ds) (n.step K e) := by
  cases e with
  | untick =>
    have hk := kept_idle K n .untick trivial
    refine ⟨hi.1, fun s hs => ?_⟩
    rcases hi.2 s hs with h | h
    · exact .inl h
    · exact .inr (right_kept (n := n) rfl hk.out h)
  | reset => exact ⟨lookup_keys_inputs (g := Cont.flagUpdated) rfl (fun _ => rfl) hi.1, fun s hs => by cases hs⟩
  | tick D =>
    change RightInv K (D :: Ds) (n.tick K D).1
    cases hr : (n.tick K D).2 with
    | some r =>
      cases r with
      | ok s =>
        have h1 := tick_cases K D n s hr
        refine ⟨lookup_keys_inputs h1.2.1 (fun _ => rfl) hi.1, fun s' hs => ?_⟩
        rw [h1.1] at hs
        cases hs
        exact .inr (right_tick D s hi hr)
      | err => exact other (by rw [hr]; intro s h; cases h)
    | none => exact other (by rw [hr]; intro s h; cases h)
  | deliver k v =>
    change RightInv K Ds _
    by_cases hk : k = "file_path"
    · subst hk
      obtain ⟨⟨c, mx, op, h1, h2⟩, h3⟩ := hi
      have hlk : (n.step K (.deliver "file_path" v)).data.inputs.lookup "file_path" = some (c.set v).1 := by
        simp [YamlNode.step, deliver, h1, lookup_modify]
      have hout : ∀ k, outputValue (n.step K (.deliver "file_path" v)).data k = outputValue n.data k := by
        intro k
        simp only [YamlNode.step, deliver]
        split <;> rfl
      have hset : (c.set v).1 = c ∨ (c.set v).1.updated = true ∧ (c.set v).1.ty = c.ty := by
        unfold Cont.set
        cases hcheck : check c.ty v with
        | err => exact .inl rfl
        | raise => exact .inl rfl
        | ok =>
          dsimp only
          unfold Cont.assign
          split
          · exact .inl rfl
          · refine .inr ⟨?_, rfl⟩
            dsimp only
            rw [h2] at hcheck ⊢
            cases v with
            | str q =>
              have := hc q rfl
              cases hw : c.value with
              | none => rfl
              | some w =>
                change (!pyEq w (.str q)) = true
                cases w <;> simp [pyEq, pyEq.numEq, Val.num]
                rintro rfl
                exact this (by simp [pathOf, value, h1, hw])
            | _ => simp [check] at hcheck
      rcases hset with hs | ⟨hs, hty⟩
      · rw [hs] at hlk
        refine ⟨⟨c, mx, op, hlk, h2⟩, fun s hss => ?_⟩
        rcases h3 s hss with ⟨c', h4, h5⟩ | h
        · rw [h1] at h4
          cases h4
          exact .inl ⟨c, hlk, h5⟩
        · exact .inr (right_kept (by simp only [pathOf, value, hlk, h1]) hout h)
      · exact ⟨⟨_, mx, op, hlk, by rw [hty, h2]⟩, fun s _ => .inl ⟨_, hlk, hs⟩⟩
    · have hkp := kept_idle K n (.deliver k v) hk
      obtain ⟨⟨c, mx, op, h1, h2⟩, h3⟩ := hi
      refine ⟨⟨c, mx, op, by rw [hkp.path, h1], h2⟩, fun s hs => ?_⟩
      rw [hkp.cache] at hs
      rcases h3 s hs with h | h
      · exact .inl (by rw [hkp.path]; exact h)
      · exact .inr (right_kept (by simp only [pathOf, value, hkp.path]) hkp.out h)
where
  other {D : Disk} (hr : ∀ s, (n.tick K D).2 ≠ some (.ok s)) : RightInv K (D :: Ds) (n.tick K D).1 := by
    obtain ⟨h1, h2⟩ := tick_not_ok K D n hr
    refine ⟨?_, fun s hs => ?_⟩
    · obtain ⟨c, mx, op, h3, h4⟩ := hi.1
      exact ⟨c, mx, op, by rw [h1]; exact h3, h4⟩
    · rcases h2 with h2 | ⟨h2, h3⟩
      · rw [h2] at hs; cases hs
      · rw [h2] at hs
        rcases hi.2 s hs with h | h
        · exact .inl (by rw [h1]; exact h)
        · exact .inr (right_more (right_kept (by simp only [pathOf, value, h1]) h3 h) (fun _ h => List.mem_cons_of_mem _ h))

theorem disks_append (es es' : List YamlEv) : disks (es ++ es') = disks es ++ disks es' := by
  induction es with
  | nil => rfl
  | cons e es ih => cases e <;> simp [disks, ih]

theorem rightInv_run (K : YamlKind) (es : List YamlEv) : ∀ (n : YamlNode) (Ds : List Disk), RightInv K Ds n → CarefulPaths K n es →
    ∃ Ds', (∀ D ∈ Ds', D ∈ disks es ∨ D ∈ Ds) ∧ RightInv K Ds' (n.run K es) := by
  induction es with
  | nil => intro n Ds h _; exact ⟨Ds, fun _ h => .inr h, h⟩
  | cons e es ih =>
    intro n Ds h hc
    obtain ⟨Ds', h1, h2⟩ := ih _ _ (rightInv_step e h hc.1) hc.2
    refine ⟨Ds', fun D hD => ?_, h2⟩
    have hd : disks (e :: es) = disks [e] ++ disks es := disks_append [e] es
    rw [hd, List.mem_append]
    rcases h1 D hD with h | h
    · exact .inl (.inr h)
    · rcases List.mem_append.mp h with h | h
      · exact .inl (.inl h)
      · exact .inr h

/-- C86: whenever a tick answers, the answer and the outputs are right for the present path, as the file was at some tick since the
setup. Partial: the path is not delivered twice in a row (see `c86_lost`). -/
theorem c86_right_partial (K : YamlKind) (n : YamlNode) (es : List YamlEv) (D : Disk) (s : BTState) (hp : PathInput n)
    (hc : CarefulPaths K n.setup es) (h : ((n.setup.run K es).tick K D).2 = some (.ok s)) :
    Right K (D :: disks es) ((n.setup.run K es).tick K D).1 s := by
  have h0 : RightInv K [] n.setup :=
    ⟨lookup_keys_inputs (g := fun c => c.resetValue.flagUpdated) rfl (fun c => by unfold Cont.resetValue; split <;> rfl) hp,
      fun s hs => by cases hs⟩
  obtain ⟨Ds, h1, h2⟩ := rightInv_run K es n.setup [] h0 hc
  refine right_more (right_tick D s h2 h) (fun D' hD => ?_)
  rcases List.mem_cons.mp hD with rfl | hD
  · exact List.mem_cons_self ..
  · rcases h1 D' hD with h | h
    · exact List.mem_cons_of_mem _ h
    · cases h

/-! ### Where the code is wrong -/

/-- C86, violation: a file with an empty list (or dictionary) counts as not being one. -/
theorem c86_empty (K : YamlKind) (D : Disk) (n : YamlNode) (p f : String) (hr : Ready n.data) (hp : pathOf n = some (.str p))
    (hm : Means D p f) (ha : Able K n.data (D.file f)) (hn : n.cache = none)
    (he : D.file f = .data (some (match K with | .list => .list [] | .dict => .dict []))) :
    (n.tick K D).2 = some (.ok .failed) ∧ Shows (n.tick K D).1.data "load_success" (.bool false) := by
  have := (reads_of_load K D n p f hr hp hm ha (.inl hn)).2 (by
    intro v hg
    rw [he] at hg
    cases K <;> exact hg.1 rfl) (by rw [he]; intro h; cases h)
  exact ⟨this.1, this.2.1⟩

/-- C86, violation: a package that is not installed is an exception that leaves the tick. -/
theorem c86_package (K : YamlKind) (D : Disk) (n : YamlNode) (pkg rest : String) (hr : Ready n.data)
    (hp : pathOf n = some (.str ("package://" ++ pkg ++ "/" ++ rest))) (hs : '/' ∉ pkg.toList) (hn : D.share pkg = none)
    (hc : n.cache = none) : (n.tick K D).2 = none := by
  have hl : loadFile D ("package://" ++ pkg ++ "/" ++ rest) = .raises := by
    have h1 : afterPrefix "file://" ("package://" ++ pkg ++ "/" ++ rest) = none := by
      unfold afterPrefix
      rw [if_neg]
      rintro ⟨t, ht⟩
      have := congrArg List.head? ht
      simp [String.toList_append] at this
    have h2 : afterPrefix "package://" ("package://" ++ pkg ++ "/" ++ rest) = some (pkg.toList ++ '/' :: rest.toList) := by
      rw [String.append_assoc, String.append_assoc, afterPrefix_append]
      simp [String.toList_append]
    unfold loadFile
    rw [h1, h2]
    dsimp only
    rw [takeWhile_slash _ _ hs, String.ofList_toList, hn]
  obtain ⟨c, h1, h2⟩ : ∃ c, n.data.inputs.lookup "file_path" = some c ∧ c.value = some (.str ("package://" ++ pkg ++ "/" ++ rest)) := by
    simpa [pathOf, value, Option.bind_eq_some_iff] using hp
  have hval : valueAs asStr (begun n.data) "file_path" = some ("package://" ++ pkg ++ "/" ++ rest) := by
    simp [valueAs, value, begun, h1, h2, asStr]
  refine tick_raise (fun d => (yamlHook K D n.cache d).1) n.data hr ?_
  simp only [yamlHook, anyUpdated_one (begun n.data) _ c (by simpa [begun] using h1), hc, ite_self, hval, hl, loadOutputs]

/-! ### Examples -/

/-- A disk with two lists, an empty one, and a package. -/
def sampleDisk : Disk where
  share p := if p = "maps" then some "/opt/maps" else none
  file f :=
    if f = "/a" then .data (some (.list [.int 1, .int 2]))
    else if f = "/b" then .data (some (.list [.int 7]))
    else if f = "/opt/maps/a" then .data (some (.list [.int 5]))
    else if f = "/empty" then .data (some (.list []))
    else .bad "no such file"

/-- A YamlList node. -/
def sampleYaml : YamlNode where
  data :=
    { inputs := [("file_path", ⟨.path 100 none, true, true, false, none, false⟩)]
      outputs := [("load_success", ⟨.bool, true, true, false, none, false⟩), ("load_error_msg", ⟨.string 100 none, true, true, false, none, false⟩),
        ("content", ⟨.list (.int 0 100) true 10 false, true, true, false, none, false⟩),
        ("line_count", ⟨.int 0 10, true, true, false, none, false⟩)] }

/-- C86, violation: if the path is delivered twice (the source has been reset in between), the node goes on showing the old file. -/
theorem c86_lost :
    let es := [.deliver "file_path" (.str "file:///a"), .tick sampleDisk, .deliver "file_path" (.str "file:///b"),
      .deliver "file_path" (.str "file:///b")]
    let n := sampleYaml.setup.run .list es
    let o := n.tick .list sampleDisk
    pathOf n = some (.str "file:///b") ∧ o.2 = some (.ok .succeeded) ∧ outputValue o.1.data "content" = some (.list [.int 1, .int 2]) ∧
      ¬ Right .list (sampleDisk :: disks es) o.1 .succeeded := by
  have h1 : pathOf (sampleYaml.setup.run .list [.deliver "file_path" (.str "file:///a"), .tick sampleDisk,
      .deliver "file_path" (.str "file:///b"), .deliver "file_path" (.str "file:///b")]) = some (.str "file:///b") := by
    with_unfolding_all rfl
  have h2 : outputValue ((sampleYaml.setup.run .list [.deliver "file_path" (.str "file:///a"), .tick sampleDisk,
      .deliver "file_path" (.str "file:///b"), .deliver "file_path" (.str "file:///b")]).tick .list sampleDisk).1.data "content" =
      some (.list [.int 1, .int 2]) := by with_unfolding_all rfl
  refine ⟨h1, by with_unfolding_all rfl, h2, ?_⟩
  rintro ⟨D, hD, p, hp, h | h⟩
  · obtain ⟨-, f, v, hm, hg, -, w, hw, hs⟩ := h
    have hD' : D = sampleDisk := by simpa [disks] using hD
    subst hD'
    have hp' : p = "file:///b" := by
      have : pathOf ((sampleYaml.setup.run .list [.deliver "file_path" (.str "file:///a"), .tick sampleDisk,
        .deliver "file_path" (.str "file:///b"), .deliver "file_path" (.str "file:///b")]).tick .list sampleDisk).1 =
        some (.str "file:///b") := by with_unfolding_all rfl
      rw [this] at hp
      cases hp
      rfl
    subst hp'
    have hf := means_unique (Means.file (D := sampleDisk) "/b") hm (some (.list [.int 7])) rfl
    rw [hf] at hg
    obtain ⟨-, rfl⟩ := hg
    rw [h2] at hw
    cases hw
    cases hs with
    | eq h => revert h; decide +kernel
  · cases h.1


example : Means sampleDisk "package://maps/a" "/opt/maps/a" := Means.package (D := sampleDisk) (pkg := "maps") (by decide) rfl "a"

/-- The node with a path. -/
def sampleReady (p : String) : YamlNode := sampleYaml.setup.run .list [.deliver "file_path" (.str p)]

theorem sampleReady_data : (sampleReady "file:///a").data =
    { inputs := [("file_path", ⟨.path 100 none, true, true, false, some (.str "file:///a"), true⟩)]
      outputs := sampleYaml.data.outputs } := by with_unfolding_all rfl

theorem sampleAble (d : NodeData) (f : String) (h : d.outputs = sampleYaml.data.outputs)
    (hf : f = "/a" ∨ f = "/b" ∨ f = "/empty") : Able .list d (sampleDisk.file f) := by
  refine ⟨fun b => ⟨_, by rw [h]; rfl, rfl, .bool b⟩, fun m hm => ⟨⟨.string 100 none, true, true, false, none, false⟩, by rw [h]; rfl, rfl, .string hm (by intro o ho; cases ho)⟩, ?_, ?_, ?_⟩
  · rcases hf with rfl | rfl | rfl <;> intro m hm <;> cases hm
  · rcases hf with rfl | rfl | rfl
    all_goals
      rintro v ⟨hv, rfl⟩
      refine ⟨_, by rw [h]; rfl, rfl, (check_ok _ _).mp ?_⟩
      decide +kernel
  · rcases hf with rfl | rfl | rfl
    all_goals
      rintro l - ⟨hv, hl⟩
      cases hl
      refine ⟨_, by rw [h]; rfl, rfl, (check_ok _ _).mp ?_⟩
      decide +kernel

example : Reads .list (sampleDisk.file "/a") (sampleReady "file:///a").data
    (((sampleReady "file:///a").tick .list sampleDisk).1.data, ((sampleReady "file:///a").tick .list sampleDisk).2) :=
  c86_first_partial .list sampleDisk _ sampleYaml [.deliver "file_path" (.str "file:///a")] "file:///a" "/a" (.inl rfl) (by simp [NoTick])
    (by rw [show sampleYaml.setup.run .list [.deliver "file_path" (.str "file:///a")] = sampleReady "file:///a" from rfl, Ready,
          sampleReady_data]; simp)
    (by with_unfolding_all rfl) (.file "/a") (sampleAble _ _ (by with_unfolding_all rfl) (.inl rfl))

example : Reads .list (sampleDisk.file "/b") (sampleReady "file:///a").data
    ((((sampleReady "file:///a").step .list (.deliver "file_path" (.str "file:///b"))).tick .list sampleDisk).1.data,
      (((sampleReady "file:///a").step .list (.deliver "file_path" (.str "file:///b"))).tick .list sampleDisk).2) :=
  c86_new_path .list sampleDisk _ "file:///b" "/b" _ (by rw [sampleReady_data]; rfl) rfl 100 none rfl
    ((check_ok _ _).mp (by decide +kernel)) (by rw [pathOf, sampleReady_data]; simp [value])
    (by rw [sampleReady_data]; simp) (by rw [sampleReady_data]; simp) (.file "/b")
    (sampleAble _ _ (by rw [sampleReady_data]) (.inr (.inl rfl)))

example (D' : Disk) : ((((sampleReady "file:///a").tick .list sampleDisk).1.run .list [.untick, .untick]).tick .list D').2 =
    some (.ok .succeeded) :=
  (c86_kept .list sampleDisk D' (sampleReady "file:///a") [.untick, .untick] .succeeded (by with_unfolding_all rfl) (by simp [Idle])
    (by
      have : (((sampleReady "file:///a").tick .list sampleDisk).1.run .list [.untick, .untick]).data.inputs =
          [("file_path", ⟨.path 100 none, true, true, false, some (.str "file:///a"), false⟩)] := by with_unfolding_all rfl
      rw [Ready, this]
      simp)).1

example : Right .list [sampleDisk, sampleDisk]
    ((sampleYaml.setup.run .list [.deliver "file_path" (.str "file:///a"), .tick sampleDisk, .untick,
      .deliver "file_path" (.str "file:///b")]).tick .list sampleDisk).1 .succeeded :=
  c86_right_partial .list sampleYaml [.deliver "file_path" (.str "file:///a"), .tick sampleDisk, .untick,
    .deliver "file_path" (.str "file:///b")] sampleDisk .succeeded ⟨_, 100, none, rfl, rfl⟩
    ⟨(by rintro q h; cases h; simp [pathOf, value, sampleYaml, YamlNode.setup, mapAll, Cont.resetValue, Cont.flagUpdated]),
      (by rintro q h; cases h), (by rintro q h; cases h), (by
        rintro q h
        cases h
        have : pathOf ((((sampleYaml.setup.step .list (.deliver "file_path" (.str "file:///a"))).step .list (.tick sampleDisk)).step .list
          .untick)) = some (.str "file:///a") := by with_unfolding_all rfl
        rw [this]
        simp), trivial⟩ (by with_unfolding_all rfl)

example : ((sampleReady "file:///empty").tick .list sampleDisk).2 = some (.ok .failed) :=
  (c86_empty .list sampleDisk (sampleReady "file:///empty") "file:///empty" "/empty"
    (by
      have : (sampleReady "file:///empty").data.inputs =
          [("file_path", ⟨.path 100 none, true, true, false, some (.str "file:///empty"), true⟩)] := by with_unfolding_all rfl
      rw [Ready, this]
      simp) (by with_unfolding_all rfl) (.file "/empty") (sampleAble _ _ (by with_unfolding_all rfl) (.inr (.inr rfl))) rfl rfl).1

example : ((sampleReady "package://other/a").tick .list sampleDisk).2 = none :=
  c86_package .list sampleDisk (sampleReady "package://other/a") "other" "a"
    (by
      have : (sampleReady "package://other/a").data.inputs =
          [("file_path", ⟨.path 100 none, true, true, false, some (.str "package://other/a"), true⟩)] := by with_unfolding_all rfl
      rw [Ready, this]
      simp) (by with_unfolding_all rfl) (by decide) rfl rfl

end Verif.Nodes
