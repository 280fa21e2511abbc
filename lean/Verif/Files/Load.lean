import Verif.Files.Save

/-! C93: loading a tree from a file, `load_tree_from_file`, `parse_tree_yaml` and the nesting of files through Subtree nodes
(`tree_exec_manager.py`, `ros_nodes/subtree.py`, `migrate_tree_files.py`). What the YAML library reads out of a text and how versions are ordered is a parameter. -/

set_option autoImplicit false

namespace Verif.Files

/-! ### Messages and files -/

/-- A node of a tree message, as far as loading is concerned: a name, the path a Subtree node gets as `subtree_path` and whether the node can be created
apart from that (its class exists, its inputs fit, …). -/
structure FileNode where
  name : Nat
  sub : Option (List Char) := none
  good : Bool := true
  deriving DecidableEq

/-- `TreeStructure`: the nodes, the path, and whether children, wirings and tick frequency of the message fit to the nodes (`Edit/Load.lean` looks at that). -/
structure TreeMsg where
  nodes : List FileNode := []
  path : List Char := []
  fits : Bool := true
  deriving DecidableEq

/-- A YAML document that is not empty: not a mapping, or a mapping with the value of `version` (if there) and the tree `set_message_fields`
makes of the remaining keys (`none`: it raises, e.g. for an unknown key). -/
inductive Doc
  | other
  | map (version : Option Nat) (tree : Option TreeMsg)
  deriving DecidableEq

/-- What `yaml.safe_load_all` yields one after the other: a document (`none`: empty), a `ScannerError`, any other exception. -/
inductive Piece
  | doc (d : Option Doc)
  | scanner
  | error
  deriving DecidableEq

/-- The surroundings: what `open` and `read` give for a path (`none`: `IOError`), the documents of a text, the share directories of packages (`none`:
`PackageNotFoundError`), the order of versions (`none` on the left: not a version, `Version` raises), the installed version, 1.0.0 and 0.0.0. -/
structure Env where
  read : List Char → Option String
  yaml : String → List Piece
  share : List Char → Option (List Char)
  lt : Nat → Nat → Option Bool
  current : Nat
  one : Nat
  zero : Nat

/-- Why a load is refused. -/
inductive Why
  | noPath
  | malformed
  | unreadable
  | scanner
  | node
  | misfit
  deriving DecidableEq

/-- Which exception leaves the service. -/
inductive Exn
  | package
  | yaml
  | recursion
  deriving DecidableEq

/-- How a load ends. -/
inductive LoadOut
  | loaded (t : TreeMsg)
  | refused (w : Why)
  | raised (e : Exn)
  deriving DecidableEq

/-! ### The model -/

/-- migrate_tree_files.py 37-45: `migrate_legacy_tree_structure`; `none`: an exception, `some false`: `Err`. -/
def migrate (env : Env) (v : Option Nat) : Option Bool := (env.lt (v.getD env.zero) env.one).map (!·)

/-- tree_exec_manager.py 137-151: a document that is read as a tree. `none`: an exception, `some none`: migration failed. After a migration
there is a version; otherwise `datum.pop("version")` raises without one. -/
def readDoc (env : Env) : Doc → Option (Option TreeMsg)
  | .other => none
  | .map v t =>
    match env.lt (v.getD env.zero) env.current with
    | none => none
    | some true =>
      match migrate env v with
      | none => none
      | some false => some none
      | some true => t.map some
    | some false => if v.isSome then t.map some else none

/-- What `parse_tree_yaml` does: an exception (a `ScannerError` or another one) or an answer with `success` and `tree`. -/
inductive Parsed
  | scanner
  | raised
  | answer (success : Bool) (tree : TreeMsg)
  deriving DecidableEq

/-- tree_exec_manager.py 128-166: `parse_tree_yaml`; `got`: the tree once `read_data` is true. -/
def parseTree (env : Env) (got : Option TreeMsg) : List Piece → Parsed
  | [] => match got with | none => .answer false {} | some t => .answer true t
  | .scanner :: _ => .scanner
  | .error :: _ => .raised
  | .doc none :: r => parseTree env got r
  | .doc (some d) :: r =>
    match got with
    | some t => .answer false t
    | none =>
      match readDoc env d with
      | none => .raised
      | some none => .answer false {}
      | some (some t) => parseTree env (some t) r

/-- `file://` -/
def filePrefix : List Char := ['f', 'i', 'l', 'e', ':', '/', '/']

/-- `package://` -/
def packagePrefix : List Char := ['p', 'a', 'c', 'k', 'a', 'g', 'e', ':', '/', '/']

/-- tree_exec_manager.py 177-206: which file is opened for a path that is not empty. -/
def locate (env : Env) (p : List Char) : Except LoadOut (List Char) :=
  if filePrefix.isPrefixOf p then .ok (p.drop filePrefix.length)
  else if packagePrefix.isPrefixOf p then
    let name := (p.drop packagePrefix.length).takeWhile (· ≠ '/')
    match env.share name with
    | none => .error (.raised .package)
    | some dir => .ok (dir ++ p.drop (packagePrefix.length + name.length))
  else .error (.refused .malformed)

/-- tree_exec_manager.py 169-227: `load_tree_from_file`. `path` is the path of the request; the number bounds how often a file is read, `none`: the loop has
not ended by then. The `success` of `parse_tree_yaml` is not looked at. -/
def openTree (env : Env) (path : List Char) : Nat → TreeMsg → Option LoadOut
  | n, t =>
    if t.nodes ≠ [] then some (.loaded t)
    else if t.path = [] then some (.refused .noPath)
    else
      match locate env t.path with
      | .error o => some o
      | .ok f =>
        match env.read f with
        | none => some (.refused .unreadable)
        | some text =>
          match n with
          | 0 => none
          | n + 1 =>
            match parseTree env none (env.yaml text) with
            | .scanner => some (.refused .scanner)
            | .raised => some (.raised .yaml)
            | .answer _ t' => openTree env path n { t' with path := path }

/-- tree_exec_manager.py 850-862, node.py 1054-1067, ros_nodes/subtree.py 137-160: creating the nodes of a message one after the other. `load` loads a nested file. `none`: does not
end, `some none`: all nodes have been created. -/
def makeNodes (load : List Char → Option LoadOut) : List FileNode → Option (Option LoadOut)
  | [] => some none
  | x :: r =>
    match x.sub with
    | none => if x.good then makeNodes load r else some (some (.refused .node))
    | some p =>
      match load p with
      | none => none
      | some (.loaded _) => if x.good then makeNodes load r else some (some (.refused .node))
      | some (.refused _) => some (some (.refused .node))
      | some (.raised e) => some (some (.raised e))

/-- tree_exec_manager.py 820-922: `load_tree`, the number of reads bounded by `n`, and the depth Python can recurse to given by the third argument. -/
def loadTree (env : Env) (n : Nat) : Nat → TreeMsg → Option LoadOut
  | 0, _ => some (.raised .recursion)
  | d + 1, t =>
    match openTree env t.path n t with
    | none => none
    | some (.loaded t') =>
      match makeNodes (fun p => loadTree env n d { path := p }) t'.nodes with
      | none => none
      | some (some o) => some o
      | some none => if t'.fits then some (.loaded t') else some (.refused .misfit)
    | some o => some o

/-- tree_exec_manager.py 801-818: `load_tree_from_path`. -/
def loadPath (env : Env) (n d : Nat) (p : List Char) : Option LoadOut := loadTree env n d { path := p }

/-! ### What users expect -/

/-- The file that a path names: what follows `file://`, or for `package://name/rest` the file `rest` in the share directory of the package. -/
def Names (env : Env) (p f : List Char) : Prop :=
  p = filePrefix ++ f ∨
  ∃ name rest dir, '/' ∉ name ∧ p = packagePrefix ++ (name ++ '/' :: rest) ∧ env.share name = some dir ∧ f = dir ++ '/' :: rest

/-- The file that a path names holds this text. -/
def Holds (env : Env) (p : List Char) (text : String) : Prop := ∃ f, Names env p f ∧ env.read f = some text

/-- A version this installation can load: 1.0.0 or newer. -/
def Loadable (env : Env) (v : Nat) : Prop := env.lt v env.one = some false ∧ (env.lt v env.current).isSome

/-- The text is one document with a tree (and possibly empty documents). -/
def OneTree (env : Env) (text : String) (t : TreeMsg) : Prop :=
  ∃ v before after, Loadable env v ∧ (∀ x ∈ before, x = Piece.doc none) ∧ (∀ x ∈ after, x = Piece.doc none) ∧
    env.yaml text = before ++ Piece.doc (some (.map (some v) (some t))) :: after

/-! ### Paths -/

theorem isPrefixOf_append (a b : List Char) : a.isPrefixOf (a ++ b) = true := by simp

theorem takeWhile_slash (name rest : List Char) (h : '/' ∉ name) : (name ++ '/' :: rest).takeWhile (· ≠ '/') = name := by
  induction name with
  | nil => simp
  | cons c r ih =>
    simp only [List.mem_cons, not_or] at h
    have hc : c ≠ '/' := fun e => h.1 e.symm
    rw [List.cons_append, List.takeWhile_cons, if_pos (by simpa using hc), ih h.2]

theorem locate_names {env : Env} {p f : List Char} (h : Names env p f) : locate env p = .ok f := by
  rcases h with rfl | ⟨name, rest, dir, hn, rfl, hs, rfl⟩
  · unfold locate
    rw [if_pos (isPrefixOf_append _ _)]
    simp
  · unfold locate
    have h1 : filePrefix.isPrefixOf (packagePrefix ++ (name ++ '/' :: rest)) = false := rfl
    rw [if_neg (by rw [h1]; simp), if_pos (isPrefixOf_append _ _)]
    dsimp only
    rw [List.drop_left, takeWhile_slash name rest hn, hs]
    dsimp only
    rw [← List.drop_drop, List.drop_left, List.drop_left]

theorem names_ne {env : Env} {p f : List Char} (h : Names env p f) : p ≠ [] := by
  rcases h with rfl | ⟨_, _, _, _, rfl, _⟩ <;> simp [filePrefix, packagePrefix]

/-! ### Reading -/

theorem parse_skip (env : Env) (got : Option TreeMsg) (l r : List Piece) (h : ∀ x ∈ l, x = Piece.doc none) :
    parseTree env got (l ++ r) = parseTree env got r := by
  induction l with
  | nil => rfl
  | cons a l ih =>
    rw [h a (List.mem_cons_self ..)]
    exact ih fun x hx => h x (List.mem_cons_of_mem _ hx)

theorem readDoc_loadable {env : Env} {v : Nat} (t : TreeMsg) (h : Loadable env v) : readDoc env (.map (some v) (some t)) = some (some t) := by
  obtain ⟨h1, h2⟩ := h
  unfold readDoc migrate
  simp only [Option.getD_some]
  cases hl : env.lt v env.current with
  | none => rw [hl] at h2; cases h2
  | some b => cases b <;> simp [h1]

theorem parse_one {env : Env} {text : String} {t : TreeMsg} (h : OneTree env text t) : parseTree env none (env.yaml text) = .answer true t := by
  obtain ⟨v, before, after, hv, hb, ha, hy⟩ := h
  rw [hy, parse_skip env _ _ _ hb]
  simp only [parseTree, readDoc_loadable t hv]
  have := parse_skip env (some t) after [] ha
  rw [List.append_nil] at this
  rw [this]
  rfl

theorem open_nodes (env : Env) (path : List Char) (n : Nat) (t : TreeMsg) (h : t.nodes ≠ []) : openTree env path n t = some (.loaded t) := by
  unfold openTree
  rw [if_pos h]

theorem open_reads {env : Env} {t : TreeMsg} {text : String} (path : List Char) (n : Nat) (h : t.nodes = []) (hp : Holds env t.path text) :
    openTree env path (n + 1) t =
      match parseTree env none (env.yaml text) with
      | .scanner => some (.refused .scanner)
      | .raised => some (.raised .yaml)
      | .answer _ t' => openTree env path n { t' with path := path } := by
  obtain ⟨f, hf, hr⟩ := hp
  conv => lhs; unfold openTree
  rw [if_neg (by simp [h]), if_neg (names_ne hf), locate_names hf]
  dsimp only
  rw [hr]

theorem open_stuck {env : Env} {t : TreeMsg} {text : String} (path : List Char) (h : t.nodes = []) (hp : Holds env t.path text) : openTree env path 0 t = none := by
  obtain ⟨f, hf, hr⟩ := hp
  unfold openTree
  rw [if_neg (by simp [h]), if_neg (names_ne hf), locate_names hf]
  dsimp only
  rw [hr]

/-! ### C93 -/

/-- C93: a message that holds nodes is loaded as it is; no file is read. -/
theorem c93_message (env : Env) (n : Nat) (t : TreeMsg) (h : t.nodes ≠ []) : openTree env t.path n t = some (.loaded t) := open_nodes env _ n t h

/-- C93: loading a path whose file holds exactly one tree, with nodes, gives that tree (with the path that was asked for). The file is
read once. `_partial`: nothing is said here about trees without nodes (see `c93_hangs`). -/
theorem c93_file_partial (env : Env) (n : Nat) (p : List Char) (text : String) (t : TreeMsg) (hp : Holds env p text) (h1 : OneTree env text t) (hn : t.nodes ≠ []) :
    openTree env p (n + 1) { path := p } = some (.loaded { t with path := p }) := by
  rw [open_reads (t := { path := p }) p n rfl hp, parse_one h1]
  exact open_nodes env p n _ hn

/-- C93: without nodes and path, with a path that starts neither with `file://` nor with `package://`, and with a file that cannot be opened, loading is refused. -/
theorem c93_refused (env : Env) (n d : Nat) (p : List Char) :
    (p = [] → loadPath env n (d + 1) p = some (.refused .noPath)) ∧
    (p ≠ [] → (∀ x, p ≠ filePrefix ++ x) → (∀ x, p ≠ packagePrefix ++ x) → loadPath env n (d + 1) p = some (.refused .malformed)) ∧
    (∀ f, Names env p f → env.read f = none → loadPath env n (d + 1) p = some (.refused .unreadable)) := by
  refine ⟨?_, ?_, ?_⟩
  · rintro rfl
    simp [loadPath, loadTree, openTree]
  · intro h0 h1 h2
    have k1 : filePrefix.isPrefixOf p = false := by
      cases hb : filePrefix.isPrefixOf p with
      | false => rfl
      | true => obtain ⟨x, hx⟩ := List.isPrefixOf_iff_prefix.1 hb; exact absurd hx.symm (h1 x)
    have k2 : packagePrefix.isPrefixOf p = false := by
      cases hb : packagePrefix.isPrefixOf p with
      | false => rfl
      | true => obtain ⟨x, hx⟩ := List.isPrefixOf_iff_prefix.1 hb; exact absurd hx.symm (h2 x)
    have : locate env p = .error (.refused .malformed) := by
      unfold locate
      rw [if_neg (by rw [k1]; simp), if_neg (by rw [k2]; simp)]
    unfold loadPath loadTree openTree
    simp [h0, this]
  · intro f hf hr
    unfold loadPath loadTree openTree
    simp [names_ne hf, locate_names hf, hr]

/-- A text without a tree to load: only empty documents, or the first document that is not empty is of a version before 1.0.0 (or has none). -/
def NoTree (env : Env) (text : String) : Prop :=
  (∀ x ∈ env.yaml text, x = Piece.doc none) ∨
  ∃ v t before after, (∀ x ∈ before, x = Piece.doc none) ∧ env.yaml text = before ++ Piece.doc (some (.map v t)) :: after ∧
    env.lt (v.getD env.zero) env.current = some true ∧ env.lt (v.getD env.zero) env.one = some true

theorem parse_noTree {env : Env} {text : String} (h : NoTree env text) : parseTree env none (env.yaml text) = .answer false {} := by
  rcases h with h | ⟨v, t, before, after, hb, hy, h1, h2⟩
  · have := parse_skip env none _ [] h
    rw [List.append_nil] at this
    rw [this]
    rfl
  · rw [hy, parse_skip env _ _ _ hb]
    simp [parseTree, readDoc, migrate, h1, h2]

theorem open_hangs {env : Env} {p : List Char} {text : String} {b : Bool} {t : TreeMsg} (hp : Holds env p text)
    (hy : parseTree env none (env.yaml text) = .answer b t) (hn : t.nodes = []) : ∀ (n : Nat) (s : TreeMsg), s.nodes = [] → s.path = p → openTree env p n s = none
  | 0, s, hs, he => open_stuck p hs (he ▸ hp)
  | n + 1, s, hs, he => by
    rw [open_reads p n hs (he ▸ hp), hy]
    exact open_hangs hp hy hn n _ hn rfl

/-- Violation of C93: for a file that holds no tree, a tree without nodes, or a tree of a version that is too old, `load_tree` never ends: the error `parse_tree_yaml` reports
is not looked at, and the file is read again and again. -/
theorem c93_hangs (env : Env) (p : List Char) (text : String) (hp : Holds env p text)
    (h : NoTree env text ∨ ∃ t, OneTree env text t ∧ t.nodes = []) (n d : Nat) : loadPath env n (d + 1) p = none := by
  have key : openTree env p n { path := p } = none := by
    rcases h with h | ⟨t, h, hn⟩
    · exact open_hangs hp (parse_noTree h) rfl n _ rfl rfl
    · exact open_hangs hp (parse_one h) hn n _ rfl rfl
  unfold loadPath loadTree
  rw [key]

/-- C93: if loading ends, it ends after at most one read. -/
theorem c93_once (env : Env) (n : Nat) (t : TreeMsg) (o : LoadOut) (h : openTree env t.path n t = some o) : openTree env t.path 1 t = some o := by
  by_cases hn : t.nodes = []
  · unfold openTree at h ⊢
    rw [if_neg (by simp [hn])] at h ⊢
    by_cases hp : t.path = []
    · rw [if_pos hp] at h ⊢; exact h
    · rw [if_neg hp] at h ⊢
      cases hl : locate env t.path with
      | error o' => rw [hl] at h; exact h
      | ok f =>
        rw [hl] at h
        dsimp only at h ⊢
        cases hr : env.read f with
        | none => rw [hr] at h; exact h
        | some text =>
          rw [hr] at h
          cases n with
          | zero => cases h
          | succ n =>
            dsimp only at h ⊢
            cases hy : parseTree env none (env.yaml text) with
            | scanner => rw [hy] at h; exact h
            | raised => rw [hy] at h; exact h
            | answer b t' =>
              rw [hy] at h
              dsimp only at h ⊢
              by_cases ht : t'.nodes = []
              · exfalso
                have hang : ∀ (m : Nat) (s : TreeMsg), s.nodes = [] → s.path = t.path → openTree env t.path m s = none := by
                  intro m
                  induction m with
                  | zero =>
                    intro s h1 h2
                    unfold openTree
                    rw [if_neg (by simp [h1]), h2, if_neg hp, hl]
                    dsimp only
                    rw [hr]
                  | succ m ih =>
                    intro s h1 h2
                    unfold openTree
                    rw [if_neg (by simp [h1]), h2, if_neg hp, hl]
                    dsimp only
                    rw [hr]
                    dsimp only
                    rw [hy]
                    exact ih _ ht rfl
                rw [hang n { t' with path := t.path } ht rfl] at h
                cases h
              · rw [open_nodes env _ n { t' with path := t.path } ht] at h
                rw [open_nodes env _ 0 { t' with path := t.path } ht]
                exact h
  · rw [open_nodes env _ _ _ hn] at h ⊢
    exact h

/-- Violation of C93: a file with a second tree is said to be wrong ("must contain exactly one YAML object"), but it is loaded: the first tree counts, and what follows the second document is not
even read. -/
theorem c93_second_ignored (env : Env) (n : Nat) (p : List Char) (text : String) (t : TreeMsg) (v : Nat) (d : Doc) (rest : List Piece) (hp : Holds env p text)
    (hv : Loadable env v) (hy : env.yaml text = .doc (some (.map (some v) (some t))) :: .doc (some d) :: rest) (hn : t.nodes ≠ []) :
    parseTree env none (env.yaml text) = .answer false t ∧ openTree env p (n + 1) { path := p } = some (.loaded { t with path := p }) := by
  have h : parseTree env none (env.yaml text) = .answer false t := by
    rw [hy]
    simp [parseTree, readDoc_loadable t hv]
  refine ⟨h, ?_⟩
  rw [open_reads (t := { path := p }) p n rfl hp, h]
  exact open_nodes env p n _ hn

/-! ### Nested files -/

/-- Creating a list of plain nodes. -/
theorem make_plain (load : List Char → Option LoadOut) (l : List FileNode) (h : ∀ x ∈ l, x.good = true)
    (hs : ∀ x ∈ l, ∀ p, x.sub = some p → ∃ t, load p = some (.loaded t)) : makeNodes load l = some none := by
  induction l with
  | nil => rfl
  | cons a l ih =>
    have ih := ih (fun x hx => h x (List.mem_cons_of_mem _ hx)) fun x hx => hs x (List.mem_cons_of_mem _ hx)
    unfold makeNodes
    cases ha : a.sub with
    | none => dsimp only; rw [if_pos (h a (List.mem_cons_self ..))]; exact ih
    | some p =>
      obtain ⟨t, ht⟩ := hs a (List.mem_cons_self ..) p ha
      dsimp only
      rw [ht]
      dsimp only
      rw [if_pos (h a (List.mem_cons_self ..))]
      exact ih

/-- What a path stands for, with everything nested in it: a file with one tree, with nodes, that fits, all nodes of which can be created; files nest at most `k` deep. -/
def Sound (env : Env) : Nat → List Char → Prop
  | 0, _ => False
  | k + 1, p => ∃ text t, Holds env p text ∧ OneTree env text t ∧ t.nodes ≠ [] ∧ t.fits = true ∧ (∀ x ∈ t.nodes, x.good = true) ∧
      ∀ x ∈ t.nodes, ∀ q, x.sub = some q → Sound env k q

/-- C93: a tree file whose Subtree nodes refer to further such files, at most `k` deep, is loaded, provided Python can recurse `k` deep. -/
theorem c93_nested_partial (env : Env) (n : Nat) : ∀ (k d : Nat) (p : List Char), Sound env k p → k ≤ d →
    ∃ text t, Holds env p text ∧ OneTree env text t ∧ loadPath env (n + 1) d p = some (.loaded { t with path := p })
  | 0, _, _, h, _ => h.elim
  | k + 1, 0, _, _, hd => absurd hd (by omega)
  | k + 1, d + 1, p, h, hd => by
    obtain ⟨text, t, hp, h1, hn, hf, hg, hs⟩ := h
    refine ⟨text, t, hp, h1, ?_⟩
    unfold loadPath loadTree
    dsimp only
    rw [c93_file_partial env n p text t hp h1 hn]
    dsimp only
    rw [make_plain _ t.nodes hg]
    · dsimp only
      rw [if_pos hf]
    · intro x hx q hq
      obtain ⟨_, t', _, _, ht⟩ := c93_nested_partial env n k d q (hs x hx q hq) (by omega)
      exact ⟨_, ht⟩

/-- Violation of C93: if a tree file contains a Subtree node for itself (and the nodes before that can be created), loading it raises `RecursionError` out of the service, however deep Python can recurse. -/
theorem c93_self (env : Env) (n d : Nat) (p : List Char) (text : String) (t : TreeMsg) (before after : List FileNode) (x : FileNode) (hp : Holds env p text)
    (h1 : OneTree env text t) (ht : t.nodes = before ++ x :: after) (hb : ∀ y ∈ before, y.good = true ∧ y.sub = none) (hx : x.sub = some p) :
    loadPath env (n + 1) d p = some (.raised .recursion) := by
  induction d with
  | zero => rfl
  | succ d ih =>
    have hn : t.nodes ≠ [] := by rw [ht]; simp
    unfold loadPath loadTree
    dsimp only
    rw [c93_file_partial env n p text t hp h1 hn]
    dsimp only
    have : makeNodes (fun q => loadTree env (n + 1) d { path := q }) t.nodes = some (some (.raised .recursion)) := by
      rw [ht]
      clear ht
      induction before with
      | nil =>
        show makeNodes _ (x :: after) = _
        unfold makeNodes
        rw [hx]
        dsimp only
        rw [show loadTree env (n + 1) d { path := p } = some (.raised .recursion) from ih]
      | cons a l il =>
        show makeNodes _ (a :: (l ++ x :: after)) = _
        unfold makeNodes
        rw [(hb a (List.mem_cons_self ..)).2]
        dsimp only
        rw [if_pos (hb a (List.mem_cons_self ..)).1]
        exact il fun y hy => hb y (List.mem_cons_of_mem _ hy)
    rw [this]

/-- C93: a nested file that cannot be loaded makes the load fail; the tree is not loaded without it. -/
theorem c93_nested_fails (env : Env) (n d : Nat) (t t' : TreeMsg) (x : FileNode) (p : List Char) (h : loadTree env n (d + 1) t = some (.loaded t')) (hx : x ∈ t'.nodes)
    (hp : x.sub = some p) : ∃ t2, loadPath env n d p = some (.loaded t2) := by
  unfold loadTree at h
  cases ho : openTree env t.path n t with
  | none => rw [ho] at h; cases h
  | some o =>
    rw [ho] at h
    cases o with
    | refused w => cases h
    | raised e => cases h
    | loaded t1 =>
      dsimp only at h
      cases hm : makeNodes (fun q => loadTree env n d { path := q }) t1.nodes with
      | none => rw [hm] at h; cases h
      | some r =>
        rw [hm] at h
        cases r with
        | some o =>
          dsimp only at h
          obtain rfl := Option.some.inj h
          exfalso
          clear h ho hx
          revert hm
          generalize t1.nodes = l
          intro hm
          induction l with
          | nil => cases hm
          | cons a l ih =>
            unfold makeNodes at hm
            cases ha : a.sub with
            | none =>
              rw [ha] at hm
              dsimp only at hm
              split at hm
              · exact ih hm
              · cases hm
            | some q =>
              rw [ha] at hm
              dsimp only at hm
              cases hq : loadTree env n d { path := q } with
              | none => rw [hq] at hm; cases hm
              | some o =>
                rw [hq] at hm
                cases o with
                | loaded _ =>
                  dsimp only at hm
                  split at hm
                  · exact ih hm
                  · cases hm
                | refused _ => cases hm
                | raised _ => cases hm
        | none =>
          dsimp only at h
          split at h
          · cases h
            clear ho
            revert hm hx
            generalize t'.nodes = l
            intro hx hm
            induction l with
            | nil => cases hx
            | cons a l ih =>
              unfold makeNodes at hm
              rcases List.mem_cons.1 hx with rfl | hx
              · rw [hp] at hm
                dsimp only at hm
                unfold loadPath
                cases hq : loadTree env n d { path := p } with
                | none => rw [hq] at hm; cases hm
                | some o =>
                  rw [hq] at hm
                  cases o with
                  | loaded t2 => exact ⟨t2, rfl⟩
                  | refused _ => cases hm
                  | raised _ => cases hm
              · cases ha : a.sub with
                | none =>
                  rw [ha] at hm
                  dsimp only at hm
                  split at hm
                  · exact ih hx hm
                  · cases hm
                | some q =>
                  rw [ha] at hm
                  dsimp only at hm
                  cases hq : loadTree env n d { path := q } with
                  | none => rw [hq] at hm; cases hm
                  | some o =>
                    rw [hq] at hm
                    cases o with
                    | loaded _ =>
                      dsimp only at hm
                      split at hm
                      · exact ih hx hm
                      · cases hm
                    | refused _ => cases hm
                    | raised _ => cases hm
          · cases h

theorem make_good (load : List Char → Option LoadOut) (l : List FileNode) (h : makeNodes load l = some none) : ∀ x ∈ l, x.good = true := by
  induction l with
  | nil => intro x hx; cases hx
  | cons a l ih =>
    unfold makeNodes at h
    have key : a.good = true ∧ makeNodes load l = some none := by
      cases ha : a.sub with
      | none =>
        rw [ha] at h
        dsimp only at h
        split at h
        · rename_i hg; exact ⟨hg, h⟩
        · cases h
      | some q =>
        rw [ha] at h
        dsimp only at h
        cases hq : load q with
        | none => rw [hq] at h; cases h
        | some o =>
          rw [hq] at h
          cases o with
          | loaded _ =>
            dsimp only at h
            split at h
            · rename_i hg; exact ⟨hg, h⟩
            · cases h
          | refused _ => cases h
          | raised _ => cases h
    intro x hx
    rcases List.mem_cons.1 hx with rfl | hx
    · exact key.1
    · exact ih key.2 x hx

theorem make_not_loaded (load : List Char → Option LoadOut) (l : List FileNode) (t : TreeMsg) : makeNodes load l ≠ some (some (.loaded t)) := by
  induction l with
  | nil => intro h; cases h
  | cons a l ih =>
    intro h
    unfold makeNodes at h
    split at h
    · split at h
      · exact ih h
      · cases h
    · split at h
      · cases h
      · split at h
        · exact ih h
        · cases h
      · cases h
      · cases h

/-- C93: what is loaded is complete: all nodes have been created, and children, wirings and tick frequency fit. -/
theorem c93_checked (env : Env) (n d : Nat) (t t' : TreeMsg) (h : loadTree env n d t = some (.loaded t')) : t'.nodes ≠ [] ∧ t'.fits = true ∧ ∀ x ∈ t'.nodes, x.good = true := by
  cases d with
  | zero => cases h
  | succ d =>
    unfold loadTree at h
    cases ho : openTree env t.path n t with
    | none => rw [ho] at h; cases h
    | some o =>
      rw [ho] at h
      cases o with
      | refused w => cases h
      | raised e => cases h
      | loaded t1 =>
        dsimp only at h
        cases hm : makeNodes (fun q => loadTree env n d { path := q }) t1.nodes with
        | none => rw [hm] at h; cases h
        | some r =>
          rw [hm] at h
          cases r with
          | some o =>
            dsimp only at h
            obtain rfl := Option.some.inj h
            exact absurd hm (make_not_loaded _ _ _)
          | none =>
            dsimp only at h
            split at h
            · rename_i hf
              cases h
              refine ⟨?_, hf, make_good _ _ hm⟩
              clear hm hf
              have gen : ∀ (m : Nat) (s : TreeMsg) (p : List Char), openTree env p m s = some (.loaded t') → t'.nodes ≠ [] := by
                intro m
                induction m with
                | zero =>
                  intro s p h
                  unfold openTree at h
                  split at h
                  · rename_i hs; cases h; exact hs
                  · split at h
                    · cases h
                    · cases hl : locate env s.path with
                      | error o =>
                        rw [hl] at h
                        dsimp only at h
                        obtain rfl := Option.some.inj h
                        exfalso
                        unfold locate at hl
                        split at hl
                        · cases hl
                        · split at hl
                          · dsimp only at hl
                            split at hl <;> cases hl
                          · cases hl
                      | ok f =>
                        rw [hl] at h
                        dsimp only at h
                        split at h <;> cases h
                | succ m ih =>
                  intro s p h
                  unfold openTree at h
                  split at h
                  · rename_i hs; cases h; exact hs
                  · split at h
                    · cases h
                    · cases hl : locate env s.path with
                      | error o =>
                        rw [hl] at h
                        dsimp only at h
                        obtain rfl := Option.some.inj h
                        exfalso
                        unfold locate at hl
                        split at hl
                        · cases hl
                        · split at hl
                          · dsimp only at hl
                            split at hl <;> cases hl
                          · cases hl
                      | ok f =>
                        rw [hl] at h
                        dsimp only at h
                        split at h
                        · cases h
                        · split at h
                          · cases h
                          · cases h
                          · exact ih _ _ h
              exact gen n t t.path ho
            · cases h

/-! ### Saving and loading again -/

/-- A path as text. -/
def text : Path → List Char
  | [] => []
  | x :: r => '/' :: (x ++ text r)

/-- A path without empty components, `.`, `..` and slashes in the names. -/
def Proper (p : Path) : Prop := ∀ x ∈ p, x ≠ [] ∧ x ≠ ['.'] ∧ x ≠ ['.', '.'] ∧ '/' ∉ x

theorem parts_head (x r : List Char) (h : '/' ∉ x) : parts (x ++ '/' :: r) = x :: parts r := by
  induction x with
  | nil => simp [parts]
  | cons c x ih =>
    simp only [List.mem_cons, not_or] at h
    rw [List.cons_append, parts, if_neg (fun e => h.1 e.symm), ih h.2]

theorem parts_plain (x : List Char) (h : '/' ∉ x) : parts x = [x] := by
  induction x with
  | nil => rfl
  | cons c x ih =>
    simp only [List.mem_cons, not_or] at h
    rw [parts, if_neg (fun e => h.1 e.symm), ih h.2]

theorem parts_text (p : Path) (h : Proper p) : p ≠ [] → parts (text p) = [] :: p := by
  induction p with
  | nil => intro h0; exact absurd rfl h0
  | cons x r ih =>
    intro _
    have hx := (h x (List.mem_cons_self ..)).2.2.2
    have hr : Proper r := fun y hy => h y (List.mem_cons_of_mem _ hy)
    rw [text, parts, if_pos rfl]
    cases r with
    | nil => rw [text, List.append_nil, parts_plain x hx]
    | cons y r =>
      have := ih hr (by simp)
      rw [text, parts, if_pos rfl] at this
      rw [text, parts_head x _ hx]
      rw [List.cons.injEq] at this
      rw [this.2]

theorem walk_proper (p : Path) (h : Proper p) : ∀ base, walk base p = base ++ p := by
  induction p with
  | nil => intro base; simp [walk]
  | cons x r ih =>
    intro base
    obtain ⟨h1, h2, h3, _⟩ := h x (List.mem_cons_self ..)
    rw [walk, if_neg (by simp [h1, h2]), if_neg h3, ih fun y hy => h y (List.mem_cons_of_mem _ hy)]
    simp

theorem abspath_text (cwd p : Path) (h : Proper p) (h0 : p ≠ []) : abspath cwd (text p) = p := by
  have hh : (text p).head? = some '/' := by
    cases p with
    | nil => exact absurd rfl h0
    | cons x r => rfl
  unfold abspath
  rw [if_pos hh, parts_text p h h0, walk, if_pos (Or.inl rfl), walk_proper p h]
  rfl

theorem parts_no_slash (s : List Char) : ∀ x ∈ parts s, '/' ∉ x := by
  induction s with
  | nil => simp [parts]
  | cons c r ih =>
    intro x hx
    rw [parts] at hx
    split at hx
    · rcases List.mem_cons.1 hx with rfl | hx
      · simp
      · exact ih x hx
    · rename_i hc
      cases hp : parts r with
      | nil =>
        rw [hp] at hx
        simp only [List.mem_singleton] at hx
        subst hx
        simpa using fun e => hc e.symm
      | cons y ys =>
        rw [hp] at hx
        rcases List.mem_cons.1 hx with rfl | hx
        · simp only [List.mem_cons, not_or]
          exact ⟨fun e => hc e.symm, ih y (by rw [hp]; exact List.mem_cons_self ..)⟩
        · exact ih x (by rw [hp]; exact List.mem_cons_of_mem _ hx)

theorem walk_is_proper (l : List Name) (hl : ∀ x ∈ l, '/' ∉ x) : ∀ base, Proper base → Proper (walk base l) := by
  induction l with
  | nil => intro base h; exact h
  | cons x r ih =>
    intro base h
    have ih := ih fun y hy => hl y (List.mem_cons_of_mem _ hy)
    rw [walk]
    split
    · exact ih base h
    · rename_i h1
      split
      · exact ih _ fun y hy => h y (List.dropLast_subset _ hy)
      · rename_i h2
        refine ih _ fun y hy => ?_
        rcases List.mem_append.1 hy with hy | hy
        · exact h y hy
        · simp only [List.mem_singleton] at hy
          subst hy
          exact ⟨fun e => h1 (Or.inl e), fun e => h1 (Or.inr e), h2, hl y (List.mem_cons_self ..)⟩

theorem target_proper (cwd : Path) (hc : Proper cwd) (r : Request) : Proper (target cwd r) := by
  unfold target abspath
  split
  · exact walk_is_proper _ (parts_no_slash _) _ fun _ h => (by cases h)
  · exact walk_is_proper _ (parts_no_slash _) _ hc

/-- The surroundings after something has been saved: files are read from this file system. -/
def Env.on (env : Env) (cwd : Path) (fs : Fs) : Env :=
  { env with read := fun p => match fs.at (abspath cwd p) with | some (.file c) => some c | _ => none }

theorem splitExt_append (n : Name) : (splitExt n).1 ++ (splitExt n).2 = n := by
  unfold splitExt
  split
  · simp
  · rename_i x before hd
    have hx : x = '.' := by
      have := List.head?_dropWhile_not (fun c => decide (c ≠ '.')) n.reverse
      rw [hd] at this
      simpa using this
    split
    · have := List.takeWhile_append_dropWhile (p := fun c => decide (c ≠ '.')) (l := n.reverse)
      rw [hd, hx] at this
      have h2 := congrArg List.reverse this
      rw [List.reverse_reverse, List.reverse_append, List.reverse_cons, List.append_assoc] at h2
      exact h2
    · simp

theorem increment_chars {s t : List Char} (h : increment s = some t) : '_' ∈ t ∧ ('/' ∉ s → '/' ∉ t) := by
  have hd : ∀ k, '/' ∉ Nat.toDigits 10 k := fun k hk => by
    have := toDigits_digits k '/' hk
    revert this
    decide
  unfold increment at h
  split at h
  · cases h
    exact ⟨by simp, fun hs => by simp only [List.mem_append, List.mem_cons, not_or]; exact ⟨hs, by decide, hd 2⟩⟩
  · split at h
    · cases h
    · dsimp only at h
      split at h
      · cases h
      · cases h
        refine ⟨by simp, fun hs => ?_⟩
        simp only [List.mem_append, List.mem_cons, not_or]
        exact ⟨fun hm => hs (List.mem_of_mem_take hm), by decide, hd _⟩

theorem times_chars : ∀ (j : Nat) {s t : List Char}, incrementTimes j s = some t → ('/' ∉ s → '/' ∉ t) ∧ (j = 0 ∧ t = s ∨ '_' ∈ t)
  | 0, s, t, h => by cases h; exact ⟨id, Or.inl ⟨rfl, rfl⟩⟩
  | j + 1, s, t, h => by
    rw [incrementTimes] at h
    cases hj : incrementTimes j s with
    | none => rw [hj] at h; cases h
    | some u =>
      rw [hj] at h
      obtain ⟨h1, h2⟩ := increment_chars h
      exact ⟨fun hs => h2 ((times_chars j hj).1 hs), Or.inr h1⟩

theorem saved_proper (stores : List (List Char)) (cwd : Path) (hc : Proper cwd) (disk : Disk) (fs : Fs) (r : Request) (p : Path)
    (h : (save stores cwd disk fs r).2 = .saved p) : Proper p ∧ p ≠ [] := by
  obtain ⟨fs1, hk, ⟨_, h1⟩ | ⟨dir, n, m, ht, _, hm, hr⟩⟩ := save_cases stores cwd disk fs r
  · exact absurd h (h1 p)
  · rcases hr with ⟨_, hr⟩ | ⟨junk, _, hr⟩
    · rw [hr] at h
      cases h
      have hp := target_proper cwd hc r
      rw [ht] at hp
      refine ⟨?_, by simp⟩
      have hn := hp n (by simp)
      have hmn : m = n ∨ '_' ∈ m ∧ '/' ∉ m := by
        rcases hm with ⟨e, _⟩ | ⟨_, e, _⟩ | ⟨_, _, j, s, hj, e⟩
        · exact Or.inl e
        · exact Or.inl e
        · have hsp := splitExt_append n
          have hno := hn.2.2.2
          rw [← hsp] at hno
          simp only [List.mem_append, not_or] at hno
          obtain ⟨k1, k2⟩ := times_chars j hj
          rcases k2 with ⟨_, rfl⟩ | k2
          · exact Or.inl (e.trans hsp)
          · refine Or.inr ⟨by rw [e]; exact List.mem_append_left _ k2, ?_⟩
            rw [e]
            simp only [List.mem_append, not_or]
            exact ⟨k1 hno.1, hno.2⟩
      intro x hx
      rcases List.mem_append.1 hx with hx | hx
      · exact hp x (by simp [hx])
      · simp only [List.mem_singleton] at hx
        subst hx
        rcases hmn with rfl | ⟨h1, h2⟩
        · exact hn
        · refine ⟨?_, ?_, ?_, h2⟩ <;> rintro rfl <;> simp at h1
    · rw [hr] at h; cases h

/-- C93: a tree with nodes that is said to be saved is what loading the file that is named in the answer gives, if the text that is written reads as that tree.
`_partial`: for a tree without nodes see `c93_hangs`. -/
theorem c93_saved_partial (env : Env) (n : Nat) (stores : List (List Char)) (cwd : Path) (hc : Proper cwd) (disk : Disk) (fs : Fs) (r : Request) (p : Path) (t : TreeMsg)
    (h : (save stores cwd disk fs r).2 = .saved p) (ht : OneTree env r.tree t) (hn : t.nodes ≠ []) :
    openTree (env.on cwd (save stores cwd disk fs r).1) (filePrefix ++ text p) (n + 1) { path := filePrefix ++ text p } =
      some (.loaded { t with path := filePrefix ++ text p }) := by
  obtain ⟨hp, h0⟩ := saved_proper stores cwd hc disk fs r p h
  refine c93_file_partial _ n _ r.tree t ⟨text p, Or.inl rfl, ?_⟩ ht hn
  show (match (save stores cwd disk fs r).1.at (abspath cwd (text p)) with | some (.file c) => some c | _ => none) = _
  rw [abspath_text cwd p hp h0, (c55_saved stores cwd disk fs r p h).2.1]

/-! ### Samples -/

/-- Texts and what the library makes of them. Version 1 stands for 1.0.0, which is installed. -/
def sampleYaml (text : String) : List Piece :=
  if text = "one" then [.doc none, .doc (some (.map (some 1) (some { nodes := [{ name := 1 }, { name := 2, sub := some (filePrefix ++ nm "/leaf") }] })))]
  else if text = "leaf" then [.doc (some (.map (some 1) (some { nodes := [{ name := 3 }] })))]
  else if text = "void" then [.doc (some (.map (some 1) (some {})))]
  else if text = "old" then [.doc (some (.map none (some { nodes := [{ name := 3 }] })))]
  else if text = "two" then [.doc (some (.map (some 1) (some { nodes := [{ name := 4 }] }))), .doc (some .other), .error]
  else if text = "self" then [.doc (some (.map (some 1) (some { nodes := [{ name := 5 }, { name := 6, sub := some (packagePrefix ++ nm "pkg/self") }] })))]
  else [.scanner]

/-- A disk with one file for every text. -/
def sampleEnv : Env where
  read p := if p = nm "/one" then some "one" else if p = nm "/leaf" then some "leaf" else if p = nm "/void" then some "void" else if p = nm "/old" then some "old"
    else if p = nm "/two" then some "two" else if p = nm "/share/pkg/self" then some "self" else if p = nm "/bad" then some "bad" else none
  yaml := sampleYaml
  share p := if p = nm "pkg" then some (nm "/share/pkg") else none
  lt a b := some (decide (a < b))
  current := 1
  one := 1
  zero := 0

/-- For `c93_file_partial` and `c93_nested_partial`: a tree with a nested tree. -/
theorem sample_one : Holds sampleEnv (filePrefix ++ nm "/one") "one" ∧
    OneTree sampleEnv "one" { nodes := [{ name := 1 }, { name := 2, sub := some (filePrefix ++ nm "/leaf") }] } :=
  ⟨⟨nm "/one", Or.inl rfl, by decide⟩, 1, [.doc none], [], ⟨rfl, rfl⟩, by simp, by simp, by decide⟩

theorem sample_leaf : Sound sampleEnv 1 (filePrefix ++ nm "/leaf") :=
  ⟨"leaf", { nodes := [{ name := 3 }] }, ⟨nm "/leaf", Or.inl rfl, by decide⟩, ⟨1, [], [], ⟨rfl, rfl⟩, by simp, by simp, by decide⟩, by simp, rfl, by simp, by simp⟩

example : Sound sampleEnv 2 (filePrefix ++ nm "/one") :=
  ⟨"one", _, sample_one.1, sample_one.2, by simp, rfl, by simp, by
    intro x hx q hq
    simp only [List.mem_cons, List.not_mem_nil, or_false] at hx
    rcases hx with rfl | rfl
    · cases hq
    · cases hq; exact sample_leaf⟩

example : loadPath sampleEnv 1 2 (filePrefix ++ nm "/one") =
    some (.loaded { nodes := [{ name := 1 }, { name := 2, sub := some (filePrefix ++ nm "/leaf") }], path := filePrefix ++ nm "/one" }) := by decide

/-- For `c93_refused`. -/
example : loadPath sampleEnv 3 1 (nm "/one") = some (.refused .malformed) ∧ loadPath sampleEnv 3 1 (filePrefix ++ nm "/none") = some (.refused .unreadable) := by decide

/-- For `c93_hangs`: an empty tree, and a file without a version. -/
example : (∃ t, OneTree sampleEnv "void" t ∧ t.nodes = []) ∧ NoTree sampleEnv "old" ∧ loadPath sampleEnv 100 3 (filePrefix ++ nm "/void") = none :=
  ⟨⟨{}, ⟨1, [], [], ⟨rfl, rfl⟩, by simp, by simp, by decide⟩, rfl⟩, Or.inr ⟨none, _, [], [], by simp, rfl, by decide, by decide⟩, by decide⟩

/-- For `c93_second_ignored`: a second document and an error after that. -/
example : loadPath sampleEnv 1 1 (filePrefix ++ nm "/two") = some (.loaded { nodes := [{ name := 4 }], path := filePrefix ++ nm "/two" }) := by decide

/-- For `c93_self`, with a package path. -/
example : Holds sampleEnv (packagePrefix ++ nm "pkg/self") "self" ∧ loadPath sampleEnv 1 7 (packagePrefix ++ nm "pkg/self") = some (.raised .recursion) :=
  ⟨⟨nm "/share/pkg/self", Or.inr ⟨nm "pkg", nm "self", nm "/share/pkg", by decide, rfl, by decide, rfl⟩, by decide⟩, by decide⟩

/-- For `c93_saved_partial`: renamed while saving, loaded from there. -/
example : (save [nm "/trees"] [] {} sampleFs { sampleReq false true with tree := "leaf" }).2 = .saved [nm "trees", nm "a_3.yaml"] ∧
    loadPath (sampleEnv.on [] (save [nm "/trees"] [] {} sampleFs { sampleReq false true with tree := "leaf" }).1) 1 1 (filePrefix ++ nm "/trees/a_3.yaml") =
      some (.loaded { nodes := [{ name := 3 }], path := filePrefix ++ nm "/trees/a_3.yaml" }) := by decide

end Verif.Files
