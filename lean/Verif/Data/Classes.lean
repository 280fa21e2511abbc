import Verif.Data.Config

/-! C103: node classes (node.py 1222-1293, `from_msg` 1003-1021, package_manager.py 377-440).

A module is a list of statements that matter here: imports, definitions of classes, and exceptions. Importing the packages a module is in is taken
as import statements at the beginning of the module. Modules can be changed on disk while the program runs. -/

set_option autoImplicit false

namespace Verif.Data.Classes

open Verif.Data

/-! ### The model -/

/-- An exception: one that `load_node_module` catches (`ImportError`, `ValueError`), or another one. -/
inductive Exc | caught | other
  deriving DecidableEq, Repr

/-- The source of a class. `own`: the argument of `define_bt_node`, if the class has this decorator. `abstract`: some of the required methods are not
there. -/
structure Source where
  name : String
  bases : List (String × String)
  own : Option Config
  abstract : Bool

/-- A statement of a module. -/
inductive Stmt
  | imports (module : String)
  | cls (s : Source)
  | raises (e : Exc)

/-- A class, with its attribute `_node_config` (own or inherited) and the configurations of its bases. -/
structure Cls where
  module : String
  src : Source
  config : Option Config
  baseConfigs : List Config

/-- `sys.modules`, the modules on disk, all classes that have been made (the newest first) and `Node.node_classes`. -/
structure Env where
  disk : String → Option (List Stmt)
  loaded : List String := []
  made : List Cls := []
  registry : List ((String × String) × Cls) := []

/-- The class an expression in a list of base classes stands for. -/
def Env.find (e : Env) (b : String × String) : Option Cls := e.made.find? fun c => c.module == b.1 && c.src.name == b.2

/-- The base classes; `none`: some of them does not exist (an exception). -/
def Env.bases (e : Env) : List (String × String) → Option (List Cls)
  | [] => some []
  | b :: bs => match e.find b, e.bases bs with
    | some c, some cs => some (c :: cs)
    | _, _ => none

/-- node.py 1263-1275: the class is entered unless there is one with this module and name. -/
def register (c : Cls) (r : List ((String × String) × Cls)) : List ((String × String) × Cls) :=
  if (r.lookup (c.module, c.src.name)).isSome then r else r ++ [((c.module, c.src.name), c)]

/-- A class statement; with node.py 1237-1277 if it is decorated. Without a configuration of its own a class has the one of its first base that has
one (the search in the order of method resolution is simplified). -/
def define (module : String) (s : Source) (e : Env) : Env × Option Exc :=
  match e.bases s.bases with
  | none => (e, some .other)
  | some bs =>
    let cs := bs.filterMap (·.config)
    match s.own with
    | none => ({ e with made := ⟨module, s, cs.head?, cs⟩ :: e.made }, none)
    | some own =>
      match Data.define own cs with
      | none => ({ e with made := ⟨module, s, cs.head?, cs⟩ :: e.made }, none)
      | some cfg =>
        let c : Cls := ⟨module, s, some cfg, cs⟩
        ({ e with made := c :: e.made, registry := if s.abstract then e.registry else register c e.registry }, none)

/-- The statements of a module one after the other. -/
def exec (imp : String → Env → Env × Option Exc) (module : String) : List Stmt → Env → Env × Option Exc
  | [], e => (e, none)
  | .imports m :: r, e => match imp m e with
    | (e', none) => exec imp module r e'
    | (e', some x) => (e', some x)
  | .cls s :: r, e => match define module s e with
    | (e', none) => exec imp module r e'
    | (e', some x) => (e', some x)
  | .raises x :: _, e => (e, some x)

/-- `import`: a module that is in `sys.modules` is not executed again; one that fails is taken out again. The number is the depth of the stack; without
stack there is a `RecursionError`. -/
def import_ : Nat → String → Env → Env × Option Exc
  | 0, _, e => (e, some .other)
  | n + 1, m, e =>
    if m ∈ e.loaded then (e, none)
    else
      match e.disk m with
      | none => (e, some .caught)
      | some body =>
        match exec (import_ n) m body { e with loaded := m :: e.loaded } with
        | (e', none) => (e', none)
        | (e', some x) => ({ e' with loaded := e'.loaded.filter (· != m) }, some x)

/-- The outcome of `load_node_module`. -/
inductive Loaded | fine | nothing | raised
  deriving DecidableEq, Repr

/-- node.py 1280-1297: `load_node_module`. A relative name is a `TypeError`. -/
def load (n : Nat) (m : String) (e : Env) : Env × Loaded :=
  if m = "" then (e, .nothing)
  else if m.toList.head? = some '.' then (e, .raised)
  else
    match import_ n m e with
    | (e', none) => (e', .fine)
    | (e', some .caught) => (e', .nothing)
    | (e', some .other) => (e', .raised)

/-- What `get_available_nodes` tells about a class. -/
structure Doc where
  module : String
  name : String
  maxChildren : Int
  inputs : List String
  outputs : List String
  deriving DecidableEq, Repr

/-- package_manager.py 403-437 -/
def doc (k : String × String) (cfg : Config) : Doc :=
  { module := k.1, name := k.2, maxChildren := match cfg.maxChildren with
      | none => -1
      | some n => n
    inputs := cfg.inputs.map (·.1), outputs := cfg.outputs.map (·.1) }

/-- The answer of `get_available_nodes`: an error, a list, or no answer as an exception leaves it. -/
inductive Answer | failed | nodes (l : List Doc) | raised
  deriving DecidableEq, Repr

/-- package_manager.py 397-401: the requested modules are loaded. -/
def loadAll (n : Nat) : List String → Env → Env × Loaded
  | [], e => (e, .fine)
  | m :: ms, e =>
    if m = "" then loadAll n ms e
    else
      match load n m e with
      | (e', .fine) => loadAll n ms e'
      | r => r

/-- package_manager.py 377-440: `get_available_nodes`. The configuration of a class that has none is not listed (405-409). -/
def available (n : Nat) (ms : List String) (e : Env) : Env × Answer :=
  match loadAll n ms e with
  | (e', .nothing) => (e', .failed)
  | (e', .raised) => (e', .raised)
  | (e', .fine) => (e', .nodes (e'.registry.filterMap fun p => p.2.config.map (doc p.1)))

/-- node.py 1003-1021: the class for a node message; `none`: an error. -/
def resolve (n : Nat) (k : String × String) (e : Env) : Env × Option Cls :=
  match e.registry.lookup k with
  | some c => (e, some c)
  | none => ((load n k.1 e).1, match (load n k.1 e).2 with
    | .raised => none
    | _ => (load n k.1 e).1.registry.lookup k)

/-- What happens: a node is asked for, the list of nodes is asked for, a module changes on disk. -/
inductive Event
  | resolve (k : String × String)
  | available (ms : List String)
  | write (m : String) (body : Option (List Stmt))

def step (n : Nat) : Event → Env → Env
  | .resolve k, e => (resolve n k e).1
  | .available ms, e => (available n ms e).1
  | .write m body, e => { e with disk := fun k => if k = m then body else e.disk k }

def run (n : Nat) (es : List Event) (e : Env) : Env := es.foldl (fun e x => step n x e) e

/-! ### What is wanted -/

/-- The class can be used for nodes: it is decorated and not abstract, and its configuration is compatible with those of its bases. -/
def Cls.Usable (c : Cls) : Prop := c.src.abstract = false ∧ ∃ own, c.src.own = some own ∧ (Data.define own c.baseConfigs).isSome = true

/-- What holds at any time. -/
structure Sound (e : Env) : Prop where
  keys : (e.registry.map (·.1)).Nodup
  entry : ∀ p ∈ e.registry, p.2 ∈ e.made ∧ p.1 = (p.2.module, p.2.src.name) ∧ p.2.Usable ∧
    ∃ own, p.2.src.own = some own ∧ p.2.config = Data.define own p.2.baseConfigs
  complete : ∀ c ∈ e.made, c.Usable → (e.registry.lookup (c.module, c.src.name)).isSome = true

/-- Nothing is lost or exchanged. -/
structure Later (e e' : Env) : Prop where
  registry : ∀ k c, e.registry.lookup k = some c → e'.registry.lookup k = some c
  made : ∀ c ∈ e.made, c ∈ e'.made

theorem Later.refl (e : Env) : Later e e := ⟨fun _ _ h => h, fun _ h => h⟩

theorem Later.trans {a b c : Env} (h : Later a b) (g : Later b c) : Later a c :=
  ⟨fun k x hx => g.registry k x (h.registry k x hx), fun x hx => g.made x (h.made x hx)⟩

/-! ### Proofs -/

theorem lookup_append {α β : Type} [BEq α] (l r : List (α × β)) (k : α) : (l ++ r).lookup k = (l.lookup k).or (r.lookup k) := by
  induction l with
  | nil => simp
  | cons p l ih =>
    obtain ⟨a, b⟩ := p
    simp only [List.cons_append, List.lookup_cons]
    cases k == a <;> simp [ih]

theorem lookup_isSome_of_mem {β : Type} {l : List ((String × String) × β)} {p : (String × String) × β} (h : p ∈ l) : (l.lookup p.1).isSome = true := by
  induction l with
  | nil => cases h
  | cons q l ih =>
    obtain ⟨a, b⟩ := q
    simp only [List.lookup_cons]
    cases hk : p.1 == a with
    | true => rfl
    | false =>
      rcases List.mem_cons.1 h with rfl | h
      · simp at hk
      · exact ih h

theorem mem_of_lookup {β : Type} {l : List ((String × String) × β)} {k : String × String} {v : β} (h : l.lookup k = some v) : (k, v) ∈ l := by
  induction l with
  | nil => cases h
  | cons q l ih =>
    obtain ⟨a, b⟩ := q
    simp only [List.lookup_cons] at h
    cases hk : k == a with
    | true => rw [hk] at h; simp at h hk; subst h; subst hk; simp
    | false => rw [hk] at h; exact List.mem_cons_of_mem _ (ih h)

theorem lookup_of_mem {β : Type} {l : List ((String × String) × β)} (hn : (l.map (·.1)).Nodup) {k : String × String} {v : β} (h : (k, v) ∈ l) :
    l.lookup k = some v := by
  induction l with
  | nil => cases h
  | cons q l ih =>
    obtain ⟨a, b⟩ := q
    simp only [List.map_cons, List.nodup_cons] at hn
    simp only [List.lookup_cons]
    rcases List.mem_cons.1 h with h0 | h0
    · cases h0; simp
    · have : (k == a) = false := by
        simp only [beq_eq_false_iff_ne]
        intro e; subst e
        exact hn.1 (List.mem_map.2 ⟨(k, v), h0, rfl⟩)
      rw [this]; exact ih hn.2 h0

theorem register_later (c : Cls) (r : List ((String × String) × Cls)) (k : String × String) (x : Cls) (h : r.lookup k = some x) :
    (register c r).lookup k = some x := by
  unfold register
  split
  · exact h
  · rw [lookup_append, h]; rfl

theorem register_has (c : Cls) (r : List ((String × String) × Cls)) : ((register c r).lookup (c.module, c.src.name)).isSome = true := by
  unfold register
  split
  · assumption
  · rw [lookup_append]
    simp

/-- Both together. -/
structure Good (e e' : Env) : Prop where
  sound : Sound e'
  later : Later e e'

theorem good_define {module : String} {s : Source} {e : Env} (h : Sound e) : Good e (define module s e).1 := by
  unfold define
  cases e.bases s.bases with
  | none => exact ⟨h, Later.refl e⟩
  | some bs =>
    dsimp only
    have plain : ∀ c : Cls, (c.Usable → False) → Good e { e with made := c :: e.made } := by
      intro c hc
      refine ⟨⟨h.keys, fun p hp => ?_, fun x hx hu => ?_⟩, ⟨fun _ _ g => g, fun x hx => List.mem_cons_of_mem _ hx⟩⟩
      · have := h.entry p hp
        exact ⟨List.mem_cons_of_mem _ this.1, this.2⟩
      · rcases List.mem_cons.1 hx with rfl | hx
        · exact (hc hu).elim
        · exact h.complete x hx hu
    cases ho : s.own with
    | none => exact plain _ (fun hu => by obtain ⟨_, own, h1, _⟩ := hu; simp only [ho] at h1; cases h1)
    | some own =>
      dsimp only
      cases hd : Data.define own (bs.filterMap (·.config)) with
      | none =>
        refine plain _ (fun hu => ?_)
        obtain ⟨_, own', h1, h2⟩ := hu
        simp only [ho, Option.some.injEq] at h1
        subst h1
        dsimp only at h2
        rw [hd] at h2; cases h2
      | some cfg =>
        dsimp only
        cases ha : s.abstract with
        | true => exact plain _ (fun hu => by have := hu.1; simp only [ha] at this; cases this)
        | false =>
          simp only [Bool.false_eq_true, if_false]
          refine ⟨⟨?_, fun p hp => ?_, fun x hx hu => ?_⟩, ⟨fun k x hk => register_later _ _ k x hk, fun x hx => List.mem_cons_of_mem _ hx⟩⟩
          · dsimp only
            unfold register
            split
            · exact h.keys
            · rename_i hl
              rw [List.map_append, List.nodup_append]
              refine ⟨h.keys, by simp, ?_⟩
              intro a ha' b hb e'
              simp only [List.map_cons, List.map_nil, List.mem_singleton] at hb
              subst hb
              subst e'
              obtain ⟨p, hp, hpa⟩ := List.mem_map.1 ha'
              have := lookup_isSome_of_mem hp
              rw [hpa] at this
              exact hl this
          · dsimp only at hp
            unfold register at hp
            split at hp
            · have := h.entry p hp
              exact ⟨List.mem_cons_of_mem _ this.1, this.2⟩
            · rcases List.mem_append.1 hp with hp | hp
              · have := h.entry p hp
                exact ⟨List.mem_cons_of_mem _ this.1, this.2⟩
              · simp only [List.mem_singleton] at hp
                subst hp
                exact ⟨List.mem_cons_self, rfl, ⟨ha, own, ho, by dsimp only; rw [hd]; rfl⟩, own, ho, by dsimp only; rw [hd]⟩
          · rcases List.mem_cons.1 hx with rfl | hx
            · exact register_has _ _
            · have := h.complete x hx hu
              cases hl : e.registry.lookup (x.module, x.src.name) with
              | none => rw [hl] at this; cases this
              | some y => dsimp only; rw [register_later _ _ _ _ hl]; rfl

theorem good_exec {imp : String → Env → Env × Option Exc} (hi : ∀ m e, Sound e → Good e (imp m e).1) (module : String) :
    ∀ (body : List Stmt) (e : Env), Sound e → Good e (exec imp module body e).1 := by
  intro body
  induction body with
  | nil => intro e h; exact ⟨h, Later.refl e⟩
  | cons st r ih =>
    intro e h
    cases st with
    | imports m =>
      simp only [exec]
      have g := hi m e h
      cases hm : imp m e with
      | mk e' x =>
        rw [hm] at g
        cases x with
        | none => have k := ih e' g.sound; exact ⟨k.sound, g.later.trans k.later⟩
        | some x => exact g
    | cls s =>
      simp only [exec]
      have g := good_define (module := module) (s := s) h
      cases hm : define module s e with
      | mk e' x =>
        rw [hm] at g
        cases x with
        | none => have k := ih e' g.sound; exact ⟨k.sound, g.later.trans k.later⟩
        | some x => exact g
    | raises x => exact ⟨h, Later.refl e⟩

theorem sound_loaded {e : Env} (h : Sound e) (l : List String) : Sound { e with loaded := l } := ⟨h.keys, h.entry, h.complete⟩

theorem good_import : ∀ (n : Nat) (m : String) (e : Env), Sound e → Good e (import_ n m e).1 := by
  intro n
  induction n with
  | zero => intro m e h; exact ⟨h, Later.refl e⟩
  | succ n ih =>
    intro m e h
    unfold import_
    split
    · exact ⟨h, Later.refl e⟩
    · cases e.disk m with
      | none => exact ⟨h, Later.refl e⟩
      | some body =>
        dsimp only
        have g := good_exec (imp := import_ n) (fun m e h => ih m e h) m body { e with loaded := m :: e.loaded } (sound_loaded h _)
        cases hx : exec (import_ n) m body { e with loaded := m :: e.loaded } with
        | mk e' x =>
          rw [hx] at g
          cases x with
          | none => exact ⟨g.sound, ⟨g.later.registry, g.later.made⟩⟩
          | some x => exact ⟨sound_loaded g.sound _, ⟨g.later.registry, g.later.made⟩⟩

theorem good_load (n : Nat) (m : String) (e : Env) (h : Sound e) : Good e (load n m e).1 := by
  unfold load
  split
  · exact ⟨h, Later.refl e⟩
  · split
    · exact ⟨h, Later.refl e⟩
    · have g := good_import n m e h
      cases hx : import_ n m e with
      | mk e' x =>
        rw [hx] at g
        cases x with
        | none => exact g
        | some x => cases x <;> exact g

theorem good_loadAll (n : Nat) : ∀ (ms : List String) (e : Env), Sound e → Good e (loadAll n ms e).1 := by
  intro ms
  induction ms with
  | nil => intro e h; exact ⟨h, Later.refl e⟩
  | cons m ms ih =>
    intro e h
    unfold loadAll
    split
    · exact ih e h
    · have g := good_load n m e h
      cases hx : load n m e with
      | mk e' x =>
        rw [hx] at g
        cases x with
        | fine => have k := ih e' g.sound; exact ⟨k.sound, g.later.trans k.later⟩
        | nothing => exact g
        | raised => exact g

theorem available_env (n : Nat) (ms : List String) (e : Env) : (available n ms e).1 = (loadAll n ms e).1 := by
  unfold available
  cases loadAll n ms e with
  | mk e' x => cases x <;> rfl

theorem good_step (n : Nat) (x : Event) (e : Env) (h : Sound e) : Good e (step n x e) := by
  cases x with
  | resolve k =>
    show Good e (resolve n k e).1
    unfold resolve
    cases e.registry.lookup k with
    | some c => exact ⟨h, Later.refl e⟩
    | none => exact good_load n k.1 e h
  | available ms =>
    show Good e (available n ms e).1
    rw [available_env]
    exact good_loadAll n ms e h
  | write m body => exact ⟨⟨h.keys, h.entry, h.complete⟩, ⟨fun _ _ g => g, fun _ g => g⟩⟩

theorem good_run (n : Nat) (es : List Event) : ∀ e : Env, Sound e → Good e (run n es e) := by
  induction es with
  | nil => intro e h; exact ⟨h, Later.refl e⟩
  | cons x es ih =>
    intro e h
    have g := good_step n x e h
    have k := ih (step n x e) g.sound
    exact ⟨k.sound, g.later.trans k.later⟩

/-- Nothing loaded yet. -/
def fresh (disk : String → Option (List Stmt)) : Env := { disk := disk }

theorem sound_fresh (disk : String → Option (List Stmt)) : Sound (fresh disk) :=
  ⟨by simp [fresh], fun _ h => by simp [fresh] at h, fun _ h => by simp [fresh] at h⟩

/-- What is reached from the beginning. -/
theorem sound_run (n : Nat) (disk : String → Option (List Stmt)) (es : List Event) : Sound (run n es (fresh disk)) := (good_run n es _ (sound_fresh disk)).sound

/-- C103: the class found for a node message has the module and the name the message says; so the message published for such a node
(node.py 1171-1176) leads to the same class again, at any later time and without loading anything. -/
theorem c103_same_class (n n' : Nat) (disk : String → Option (List Stmt)) (es later : List Event) (k : String × String) (c : Cls)
    (h : (resolve n k (run n es (fresh disk))).2 = some c) :
    (c.module, c.src.name) = k ∧
    let e := run n' later (resolve n k (run n es (fresh disk))).1
    resolve n' (c.module, c.src.name) e = (e, some c) := by
  have hs := sound_run n disk es
  have hg : Good _ (resolve n k (run n es (fresh disk))).1 := good_step n (.resolve k) _ hs
  have hl : (resolve n k (run n es (fresh disk))).1.registry.lookup k = some c := by
    unfold resolve at h ⊢
    cases hr : (run n es (fresh disk)).registry.lookup k with
    | some x => rw [hr] at h; simp only [Option.some.injEq] at h; subst h; exact hr
    | none =>
      rw [hr] at h
      dsimp only at h ⊢
      split at h
      · cases h
      · exact h
  have hk := (hg.sound.entry (k, c) (mem_of_lookup hl)).2.1
  dsimp only at hk
  refine ⟨hk.symm, ?_⟩
  dsimp only
  have := (good_run n' later _ hg.sound).later.registry k c hl
  rw [← hk]
  generalize run n' later (resolve n k (run n es (fresh disk))).1 = e at this
  unfold resolve
  rw [this]

/-- The list is the one of the classes registered then. -/
theorem available_nodes {n : Nat} {ms : List String} {e : Env} {l : List Doc} (h : (available n ms e).2 = .nodes l) :
    (loadAll n ms e).2 = .fine ∧ l = (available n ms e).1.registry.filterMap fun p => p.2.config.map (doc p.1) := by
  unfold available at h ⊢
  cases hx : loadAll n ms e with
  | mk e' x =>
    rw [hx] at h
    cases x with
    | fine => dsimp only at h ⊢; cases h; exact ⟨rfl, rfl⟩
    | nothing => cases h
    | raised => cases h

/-- C103: the list of available nodes is exactly the list of the classes made so far that can be used, each once, with the number of children and the
inputs and outputs of the class and all its bases. Every node of the list can be asked for without anything being loaded. -/
theorem c103_list (n : Nat) (disk : String → Option (List Stmt)) (es : List Event) (ms : List String) (l : List Doc)
    (h : (available n ms (run n es (fresh disk))).2 = .nodes l) :
    let e := (available n ms (run n es (fresh disk))).1
    (l.map fun d => (d.module, d.name)).Nodup ∧
    (∀ c ∈ e.made, c.Usable → ∃ d ∈ l, d.module = c.module ∧ d.name = c.src.name) ∧
    ∀ d ∈ l, ∃ c ∈ e.made, ∃ own cfg, resolve n (d.module, d.name) e = (e, some c) ∧ c.Usable ∧ c.module = d.module ∧ c.src.name = d.name ∧
      c.src.own = some own ∧ Data.define own c.baseConfigs = some cfg ∧ d = doc (c.module, c.src.name) cfg := by
  have hs : Sound (available n ms (run n es (fresh disk))).1 := (good_step n (.available ms) _ (sound_run n disk es)).sound
  obtain ⟨_, hl⟩ := available_nodes h
  dsimp only
  generalize (available n ms (run n es (fresh disk))).1 = e at hs hl
  subst hl
  have full : ∀ p ∈ e.registry, ∃ own cfg, p.2.src.own = some own ∧ Data.define own p.2.baseConfigs = some cfg ∧ p.2.config = some cfg := by
    intro p hp
    obtain ⟨_, _, ⟨_, own', ho', hd'⟩, own, ho, hc⟩ := hs.entry p hp
    rw [ho] at ho'
    simp only [Option.some.injEq] at ho'
    subst ho'
    cases hd : Data.define own p.2.baseConfigs with
    | none => rw [hd] at hd'; cases hd'
    | some cfg => exact ⟨own, cfg, ho, hd, by rw [hc, hd]⟩
  refine ⟨?_, ?_, ?_⟩
  · have keys : ∀ r : List ((String × String) × Cls), (∀ p ∈ r, ∃ cfg, p.2.config = some cfg) →
        ((r.filterMap fun p => p.2.config.map (doc p.1)).map fun d => (d.module, d.name)) = r.map (·.1) := by
      intro r
      induction r with
      | nil => intro _; rfl
      | cons p r ih =>
        intro hr
        obtain ⟨cfg, hc⟩ := hr p (by simp)
        rw [List.filterMap_cons]
        simp only [hc, Option.map_some, List.map_cons]
        rw [ih (fun q hq => hr q (by simp [hq]))]
        rfl
    rw [keys e.registry (fun p hp => by obtain ⟨_, cfg, _, _, hc⟩ := full p hp; exact ⟨cfg, hc⟩)]
    exact hs.keys
  · intro c hc hu
    have := hs.complete c hc hu
    cases hx : e.registry.lookup (c.module, c.src.name) with
    | none => rw [hx] at this; cases this
    | some x =>
      obtain ⟨_, cfg, _, _, hcfg⟩ := full _ (mem_of_lookup hx)
      exact ⟨doc (c.module, c.src.name) cfg, List.mem_filterMap.2 ⟨_, mem_of_lookup hx, by dsimp only at hcfg ⊢; rw [hcfg]; rfl⟩, rfl, rfl⟩
  · intro d hd
    obtain ⟨p, hp, hpd⟩ := List.mem_filterMap.1 hd
    obtain ⟨hm, hk, hu, _⟩ := hs.entry p hp
    obtain ⟨own, cfg, h1, h2, h3⟩ := full p hp
    rw [h3] at hpd
    simp only [Option.map_some, Option.some.injEq] at hpd
    have e1 : d.module = p.2.module := by rw [← hpd, hk]; rfl
    have e2 : d.name = p.2.src.name := by rw [← hpd, hk]; rfl
    refine ⟨p.2, hm, own, cfg, ?_, hu, e1.symm, e2.symm, h1, h2, by rw [← hk]; exact hpd.symm⟩
    unfold resolve
    have : e.registry.lookup (d.module, d.name) = some p.2 := by
      rw [e1, e2, ← hk]
      exact lookup_of_mem hs.keys hp
    rw [this]

/-! ### What is in a module that has been loaded -/

/-- All classes in the modules that are loaded and not being loaded have been made. `busy`: the modules being loaded. -/
def Full (busy : List String) (e : Env) : Prop :=
  ∀ m ∈ e.loaded, m ∉ busy → ∀ body, e.disk m = some body → ∀ s, .cls s ∈ body → ∃ c ∈ e.made, c.module = m ∧ c.src = s

theorem define_fine {module : String} {s : Source} {e e' : Env} (h : define module s e = (e', none)) :
    e'.loaded = e.loaded ∧ e'.disk = e.disk ∧ ∃ c ∈ e'.made, c.module = module ∧ c.src = s := by
  unfold define at h
  split at h
  · cases h
  · dsimp only at h
    split at h
    · cases h; exact ⟨rfl, rfl, _, List.mem_cons_self, rfl, rfl⟩
    · split at h
      · cases h; exact ⟨rfl, rfl, _, List.mem_cons_self, rfl, rfl⟩
      · cases h; exact ⟨rfl, rfl, _, List.mem_cons_self, rfl, rfl⟩

theorem define_frame (module : String) (s : Source) (e : Env) :
    (define module s e).1.loaded = e.loaded ∧ (define module s e).1.disk = e.disk ∧ ∀ c ∈ e.made, c ∈ (define module s e).1.made := by
  unfold define
  split
  · exact ⟨rfl, rfl, fun _ h => h⟩
  · dsimp only
    split
    · exact ⟨rfl, rfl, fun _ h => List.mem_cons_of_mem _ h⟩
    · split
      · exact ⟨rfl, rfl, fun _ h => List.mem_cons_of_mem _ h⟩
      · exact ⟨rfl, rfl, fun _ h => List.mem_cons_of_mem _ h⟩

/-- What an import keeps. -/
structure Imp (busy : List String) (e e' : Env) : Prop where
  disk : e'.disk = e.disk
  made : ∀ c ∈ e.made, c ∈ e'.made
  loaded : ∀ m ∈ busy, m ∈ e.loaded → m ∈ e'.loaded
  full : Full busy e'

theorem imp_exec {imp : String → Env → Env × Option Exc} (busy : List String)
    (hi : ∀ m e, (∀ b ∈ busy, b ∈ e.loaded) → Full busy e → Imp busy e (imp m e).1) (module : String) :
    ∀ (body : List Stmt) (e : Env), (∀ b ∈ busy, b ∈ e.loaded) → Full busy e →
      Imp busy e (exec imp module body e).1 ∧
      ((exec imp module body e).2 = none → ∀ s, .cls s ∈ body → ∃ c ∈ (exec imp module body e).1.made, c.module = module ∧ c.src = s) := by
  intro body
  induction body with
  | nil => intro e _ hf; exact ⟨⟨rfl, fun _ h => h, fun _ _ h => h, hf⟩, fun _ s hs => by cases hs⟩
  | cons st r ih =>
    intro e hb hf
    cases st with
    | imports m =>
      simp only [exec]
      have g := hi m e hb hf
      cases hm : imp m e with
      | mk e' x =>
        rw [hm] at g
        cases x with
        | none =>
          dsimp only at g ⊢
          have hb' : ∀ b ∈ busy, b ∈ e'.loaded := fun b h => g.loaded b h (hb b h)
          obtain ⟨k1, k2⟩ := ih e' hb' g.full
          refine ⟨⟨k1.disk.trans g.disk, fun c hc => k1.made c (g.made c hc), fun b h h' => k1.loaded b h (g.loaded b h h'), k1.full⟩, fun h s hs => ?_⟩
          rcases List.mem_cons.1 hs with hs | hs
          · cases hs
          · exact k2 h s hs
        | some x => exact ⟨g, fun h => by cases h⟩
    | cls s =>
      simp only [exec]
      have fr := define_frame module s e
      cases hm : define module s e with
      | mk e' x =>
        rw [hm] at fr
        dsimp only at fr
        have hf' : Full busy e' := by
          intro m hm' hn body hbody s' hs'
          rw [fr.1] at hm'
          rw [fr.2.1] at hbody
          obtain ⟨c, hc, h1, h2⟩ := hf m hm' hn body hbody s' hs'
          exact ⟨c, fr.2.2 c hc, h1, h2⟩
        have i1 : Imp busy e e' := ⟨fr.2.1, fr.2.2, fun b _ h => by rw [fr.1]; exact h, hf'⟩
        cases x with
        | none =>
          dsimp only
          obtain ⟨k1, k2⟩ := ih e' (fun b h => by rw [fr.1]; exact hb b h) hf'
          refine ⟨⟨k1.disk.trans fr.2.1, fun c hc => k1.made c (fr.2.2 c hc), fun b h h' => k1.loaded b h (by rw [fr.1]; exact h'), k1.full⟩, fun h s' hs => ?_⟩
          rcases List.mem_cons.1 hs with hs | hs
          · cases hs
            obtain ⟨_, _, c, hc, h1, h2⟩ := define_fine hm
            exact ⟨c, k1.made c hc, h1, h2⟩
          · exact k2 h s' hs
        | some x => exact ⟨i1, fun h => by cases h⟩
    | raises x => exact ⟨⟨rfl, fun _ h => h, fun _ _ h => h, hf⟩, fun h => by cases h⟩

theorem imp_import : ∀ (n : Nat) (busy : List String) (m : String) (e : Env), (∀ b ∈ busy, b ∈ e.loaded) → Full busy e →
    Imp busy e (import_ n m e).1 ∧ ((import_ n m e).2 = none → m ∈ (import_ n m e).1.loaded) := by
  intro n
  induction n with
  | zero => intro busy m e _ hf; exact ⟨⟨rfl, fun _ h => h, fun _ _ h => h, hf⟩, fun h => by cases h⟩
  | succ n ih =>
    intro busy m e hb hf
    unfold import_
    split
    · rename_i hl
      exact ⟨⟨rfl, fun _ h => h, fun _ _ h => h, hf⟩, fun _ => hl⟩
    · rename_i hnl
      cases hbody : e.disk m with
      | none => exact ⟨⟨rfl, fun _ h => h, fun _ _ h => h, hf⟩, fun h => by cases h⟩
      | some body =>
        dsimp only
        have hmb : m ∉ busy := fun h => hnl (hb m h)
        obtain ⟨g, g2⟩ := imp_exec (imp := import_ n) (m :: busy) (fun m e hb hf => (ih (m := m) (e := e) (busy := _) hb hf).1) m body
          { e with loaded := m :: e.loaded }
          (fun b h => by
            rcases List.mem_cons.1 h with rfl | h
            · exact List.mem_cons_self
            · exact List.mem_cons_of_mem _ (hb b h))
          (fun m' hm' hn body' hb' s hs => by
            rcases List.mem_cons.1 hm' with rfl | hm'
            · exact absurd List.mem_cons_self hn
            · exact hf m' hm' (fun h => hn (List.mem_cons_of_mem _ h)) body' hb' s hs)
        have hml := g.loaded m List.mem_cons_self List.mem_cons_self
        cases hx : exec (import_ n) m body { e with loaded := m :: e.loaded } with
        | mk e' x =>
          rw [hx] at g g2 hml
          dsimp only at g g2 hml
          cases x with
          | none =>
            refine ⟨⟨g.disk, g.made, fun b h h' => g.loaded b (List.mem_cons_of_mem _ h) (List.mem_cons_of_mem _ h'), ?_⟩, fun _ => hml⟩
            intro m' hm' hn body' hb' s hs
            by_cases e0 : m' = m
            · subst e0
              dsimp only at hb'
              rw [g.disk] at hb'
              dsimp only at hb'
              rw [hbody] at hb'
              cases hb'
              exact g2 rfl s hs
            · exact g.full m' hm' (fun h => by
                rcases List.mem_cons.1 h with h | h
                · exact e0 h
                · exact hn h) body' hb' s hs
          | some x =>
            refine ⟨⟨g.disk, g.made, fun b h h' => ?_, ?_⟩, fun h => by cases h⟩
            · have : b ≠ m := fun e0 => hmb (e0 ▸ h)
              simp only [List.mem_filter, bne_iff_ne, ne_eq]
              exact ⟨g.loaded b (List.mem_cons_of_mem _ h) (List.mem_cons_of_mem _ h'), this⟩
            · intro m' hm' hn body' hb' s hs
              simp only [List.mem_filter, bne_iff_ne, ne_eq] at hm'
              exact g.full m' hm'.1 (fun h => by
                rcases List.mem_cons.1 h with h | h
                · exact hm'.2 h
                · exact hn h) body' hb' s hs

theorem imp_loadAll (n : Nat) : ∀ (ms : List String) (e : Env), Full [] e → Imp [] e (loadAll n ms e).1 ∧
    ((loadAll n ms e).2 = .fine → ∀ m ∈ ms, m ≠ "" → ∀ body, e.disk m = some body → ∀ s, .cls s ∈ body → ∃ c ∈ (loadAll n ms e).1.made, c.module = m ∧ c.src = s) := by
  intro ms
  induction ms with
  | nil => intro e hf; exact ⟨⟨rfl, fun _ h => h, fun _ _ h => h, hf⟩, fun _ m hm => by cases hm⟩
  | cons m ms ih =>
    intro e hf
    unfold loadAll
    split
    · rename_i he
      obtain ⟨k1, k2⟩ := ih e hf
      refine ⟨k1, fun h m' hm' hne => ?_⟩
      rcases List.mem_cons.1 hm' with rfl | hm'
      · exact absurd he hne
      · exact k2 h m' hm' hne
    · rename_i hne0
      obtain ⟨g, gl⟩ := imp_import n [] m e (fun b h => by cases h) hf
      have key : Imp [] e (load n m e).1 ∧ ((load n m e).2 = .fine → m ∈ (load n m e).1.loaded) := by
        unfold load
        rw [if_neg hne0]
        split
        · exact ⟨⟨rfl, fun _ h => h, fun _ _ h => h, hf⟩, fun h => by cases h⟩
        · cases hx : import_ n m e with
          | mk e' x =>
            rw [hx] at g gl
            cases x with
            | none => exact ⟨g, fun _ => gl rfl⟩
            | some x => cases x <;> exact ⟨g, fun h => by cases h⟩
      obtain ⟨k, kl⟩ := key
      cases hx : load n m e with
      | mk e' x =>
        rw [hx] at k kl
        dsimp only at k kl
        cases x with
        | nothing => exact ⟨k, fun h => by cases h⟩
        | raised => exact ⟨k, fun h => by cases h⟩
        | fine =>
          dsimp only
          obtain ⟨k1, k2⟩ := ih e' k.full
          refine ⟨⟨k1.disk.trans k.disk, fun c hc => k1.made c (k.made c hc), fun b h => (by cases h), k1.full⟩, fun h m' hm' hne body hb s hs => ?_⟩
          rcases List.mem_cons.1 hm' with rfl | hm'
          · obtain ⟨c, hc, h1, h2⟩ := k.full m' (kl rfl) (by simp) body (by rw [k.disk]; exact hb) s hs
            exact ⟨c, k1.made c hc, h1, h2⟩
          · exact k2 h m' hm' hne body (by rw [k.disk]; exact hb) s hs

/-- C103, as long as no module changes on disk: the list contains every concrete class of every requested module that is decorated and whose
configuration is compatible with those of its bases. -/
theorem c103_requested_partial (n : Nat) (disk : String → Option (List Stmt)) (es : List Event) (hes : ∀ m b, .write m b ∉ es) (ms : List String) (l : List Doc)
    (h : (available n ms (run n es (fresh disk))).2 = .nodes l) (m : String) (hm : m ∈ ms) (hne : m ≠ "") (body : List Stmt) (hb : disk m = some body)
    (s : Source) (hs : .cls s ∈ body) :
    ∃ c ∈ (available n ms (run n es (fresh disk))).1.made, c.module = m ∧ c.src = s ∧ (c.Usable → ∃ d ∈ l, d.module = m ∧ d.name = s.name) := by
  have hrun : ∀ (es : List Event) (e : Env), (∀ m b, .write m b ∉ es) → Full [] e → Full [] (run n es e) ∧ (run n es e).disk = e.disk := by
    intro es
    induction es with
    | nil => intro e _ hf; exact ⟨hf, rfl⟩
    | cons x es ih =>
      intro e hw hf
      have key : Full [] (step n x e) ∧ (step n x e).disk = e.disk := by
        cases x with
        | write m b => exact absurd List.mem_cons_self (hw m b)
        | available ms =>
          show Full [] (available n ms e).1 ∧ (available n ms e).1.disk = e.disk
          rw [available_env]
          exact ⟨(imp_loadAll n ms e hf).1.full, (imp_loadAll n ms e hf).1.disk⟩
        | resolve k =>
          show Full [] (resolve n k e).1 ∧ (resolve n k e).1.disk = e.disk
          unfold resolve
          cases e.registry.lookup k with
          | some c => exact ⟨hf, rfl⟩
          | none =>
            dsimp only
            unfold load
            split
            · exact ⟨hf, rfl⟩
            · split
              · exact ⟨hf, rfl⟩
              · have g := (imp_import n [] k.1 e (fun b h => by cases h) hf).1
                cases hx : import_ n k.1 e with
                | mk e' x =>
                  rw [hx] at g
                  cases x with
                  | none => exact ⟨g.full, g.disk⟩
                  | some x => cases x <;> exact ⟨g.full, g.disk⟩
      have := ih (step n x e) (fun m b h => hw m b (List.mem_cons_of_mem _ h)) key.1
      exact ⟨this.1, this.2.trans key.2⟩
  obtain ⟨hf, hd⟩ := hrun es (fresh disk) hes (fun m hm => by simp [fresh] at hm)
  obtain ⟨hfine, _⟩ := available_nodes h
  obtain ⟨c, hc, h1, h2⟩ := (imp_loadAll n ms _ hf).2 hfine m hm hne body (by rw [hd]; exact hb) s hs
  rw [← available_env] at hc
  refine ⟨c, hc, h1, h2, fun hu => ?_⟩
  obtain ⟨d, hdl, h3, h4⟩ := (c103_list n disk es ms l h).2.1 c hc hu
  exact ⟨d, hdl, h3.trans h1, by rw [h4, h2]⟩

/-! ### Violations -/

/-- A leaf with one input. -/
def leaf (name key : String) : Stmt := .cls ⟨name, [], some ⟨[(key, { ty := .bool })], [], some 0⟩, false⟩

/-- One module on disk. -/
def disk (body : List Stmt) : String → Option (List Stmt) := fun m => if m = "m" then some body else none

/-- C103, violated: a module that cannot be loaded leaves its first classes behind; they are listed. When the module has been repaired and loaded, the
class from the first attempt is still the one that is used. -/
theorem c103_half_loaded :
    let e := run 5 [.available ["m"]] (fresh (disk [leaf "A" "x", .raises .caught]))
    (available 5 ["m"] (fresh (disk [leaf "A" "x", .raises .caught]))).2 = .failed ∧
    (available 5 [] e).2 = .nodes [⟨"m", "A", 0, ["x"], []⟩] ∧
    (available 5 ["m"] (run 5 [.write "m" (some [leaf "A" "y"])] e)).2 = .nodes [⟨"m", "A", 0, ["x"], []⟩] := by decide +kernel

/-- C103, violated: other exceptions than `ImportError` and `ValueError`, e.g. a syntax error, are not caught; nor is the `TypeError` for a relative
name. -/
theorem c103_raised :
    (available 5 ["m"] (fresh (disk [.raises .other]))).2 = .raised ∧
    (available 5 [".m"] (fresh (disk [leaf "A" "x"]))).2 = .raised ∧
    (load 5 "m" (fresh (disk [.raises .other]))).2 = .raised := by decide +kernel

/-! ### Examples -/

/-- A package with a module of base classes: of the two leaves one is listed, the other one has an input that its base has, too; the base itself is
abstract. -/
def package : String → Option (List Stmt) := fun m =>
  if m = "base" then some [.cls ⟨"Leaf", [], some ⟨[("i", { ty := .bool })], [], some 0⟩, true⟩]
  else if m = "p" then some [.imports "base", .cls ⟨"A", [("base", "Leaf")], some ⟨[("j", { ty := .bool })], [], some 0⟩, false⟩,
    .cls ⟨"B", [("base", "Leaf")], some ⟨[("i", { ty := .bool })], [], some 0⟩, false⟩]
  else none

example : (available 5 ["p", ""] (fresh package)).2 = .nodes [⟨"p", "A", 0, ["j", "i"], []⟩] ∧
    (available 5 ["q"] (fresh package)).2 = .failed ∧
    ((resolve 5 ("p", "A") (fresh package)).2.map fun c => (c.module, c.src.name)) = some ("p", "A") ∧
    (resolve 5 ("p", "B") (fresh package)).2.isNone = true := by decide +kernel

end Verif.Data.Classes
