import Verif.Data.Sync
import Verif.Data.Values
import Verif.Data.Updates

/-! C97: what is published about the data that flows along the wirings. -/

set_option autoImplicit false

namespace Verif.Data

/-! ### The model -/

mutual

/-- Two JSON texts are the same. `json.dumps` writes different values differently, and the entries of a dictionary in their order. -/
def Json.same : Json → Json → Bool
  | .null, .null => true
  | .bool a, .bool b => a = b
  | .int a, .int b => a = b
  | .float a, .float b => a = b
  | .str a, .str b => a = b
  | .arr a, .arr b => sameItems a b
  | .obj a, .obj b => sameEntries a b
  | _, _ => false

/-- Lists of JSON texts. -/
def sameItems : List Json → List Json → Bool
  | [], [] => true
  | x :: a, y :: b => x.same y && sameItems a b
  | _, _ => false

/-- Entries with JSON texts. -/
def sameEntries : List (String × Json) → List (String × Json) → Bool
  | [], [] => true
  | (k, x) :: a, (l, y) :: b => k = l && x.same y && sameEntries a b
  | _, _ => false
end

/-- `==` on what `serialize_value` returns; `none` is the empty string. -/
def sameText : Option Json → Option Json → Bool
  | none, none => true
  | some a, some b => a.same b
  | _, _ => false

/-- msg/WiringData.msg, without the types. -/
structure WiringData where
  source : Nat
  conn : Conn
  data : Option Json
  current : Bool

/-- data_flow_manager.py 186-213: `_get_wiring_data`, for messages nested at most `n` deep; `none`: an exception other than `KeyError`. -/
def Flow.wiringData (env : Env) (n : Nat) (f : Flow) (s : Nat) (x : Conn) : Option WiringData :=
  match f.output s x.sourceKey, f.input x.target x.targetKey with
  | some c, some t =>
    match c.serializeValue env n, t.serializeValue env n with
    | some a, some b => some ⟨s, x, a, sameText a b⟩
    | _, _ => none
  | _, _ => some ⟨s, x, none, false⟩

/-- data_flow_manager.py 217-218: the connections in the order of the loops. -/
def pairs (cs : List (Nat × List Conn)) : List (Nat × Conn) := cs.flatMap fun p => p.2.map (p.1, ·)

/-- data_flow_manager.py 215-227: `get_wiring_data`. -/
def Flow.allWiringData (env : Env) (n : Nat) (f : Flow) : Option (List WiringData) := (pairs f.conns).mapM fun p => f.wiringData env n p.1 p.2

/-! ### Equal values of the same look -/

/-- Two values are built alike: numbers of the same class, dictionaries and messages with the same keys in the same order. -/
inductive Alike : Val → Val → Prop
  | none : Alike .none .none
  | bool (a b : Bool) : Alike (.bool a) (.bool b)
  | int (a b : Int) : Alike (.int a) (.int b)
  | float (a b : Flt) : Alike (.float a) (.float b)
  | str (a b : String) : Alike (.str a) (.str b)
  | bytes (a b : List UInt8) : Alike (.bytes a) (.bytes b)
  | cls (a b : String) : Alike (.cls a) (.cls b)
  | list (l m : List Val) : (∀ p ∈ l.zip m, Alike p.1 p.2) → Alike (.list l) (.list m)
  | array (l m : List Val) : (∀ p ∈ l.zip m, Alike p.1 p.2) → Alike (.array l) (.array m)
  | dict (l m : List (String × Val)) : l.map (·.1) = m.map (·.1) → (m.map (·.1)).Nodup → (∀ p ∈ l.zip m, Alike p.1.2 p.2.2) → Alike (.dict l) (.dict m)
  | msg (s t : String) (l m : List (String × Val)) : l.map (·.1) = m.map (·.1) → (m.map (·.1)).Nodup → (∀ p ∈ l.zip m, Alike p.1.2 p.2.2) → Alike (.msg s l) (.msg t m)

theorem flt_eq {a b : Flt} (h : a.eq b = true) : a = b := by
  cases a <;> cases b <;> simp [Flt.eq] at h ⊢ <;> exact h

theorem items_eq : ∀ (l m : List Val), (∀ p ∈ l.zip m, pyEq p.1 p.2 = true → p.1 = p.2) → pyEqs l m = true → l = m
  | [], [], _, _ => rfl
  | [], _ :: _, _, h => by simp [pyEqs] at h
  | _ :: _, [], _, h => by simp [pyEqs] at h
  | a :: l, b :: m, hp, h => by
    simp only [pyEqs, Bool.and_eq_true] at h
    have hab : a = b := hp (a, b) (by simp) h.1
    rw [hab, items_eq l m (fun p hm => hp p (by simp [hm])) h.2]

theorem fields_eq : ∀ (l m d : List (String × Val)), l.map (·.1) = m.map (·.1) → ((d ++ m).map (·.1)).Nodup → (∀ p ∈ l.zip m, pyEq p.1.2 p.2.2 = true → p.1.2 = p.2.2) →
    pyEqFields l (d ++ m) = true → l = m
  | [], [], _, _, _, _, _ => rfl
  | [], _ :: _, _, hk, _, _, _ => by simp at hk
  | _ :: _, [], _, hk, _, _, _ => by simp at hk
  | (j, a) :: l, (k, b) :: m, d, hk, hn, hp, h => by
    simp only [List.map_cons, List.cons.injEq] at hk
    obtain ⟨rfl, hk⟩ := hk
    have hd : j ∉ d.map (·.1) := by
      intro hm
      rw [List.map_append, List.nodup_append] at hn
      exact hn.2.2 _ hm _ (by simp) rfl
    rw [pyEqFields, lookup_mid j b d m hd, Bool.and_eq_true] at h
    have hab := hp ((j, a), (j, b)) (by simp) h.1
    have := fields_eq l m (d ++ [(j, b)]) hk (by simpa using hn) (fun p hm => hp p (by simp [hm])) (by simpa using h.2)
    dsimp only at hab
    rw [hab, this]

/-- Values that are equal in Python and built alike are the same. -/
theorem alike_eq {v w : Val} (h : Alike v w) : pyEq v w = true → v = w := by
  induction h with
  | none => intro _; rfl
  | bool a b => intro h; cases a <;> cases b <;> first | rfl | (simp [pyEq, pyEq.numEq, Val.num, Flt.eq] at h)
  | int a b => intro h; simp [pyEq, pyEq.numEq, Val.num, Flt.eq] at h; rw [h]
  | float a b => intro h; simp only [pyEq, pyEq.numEq, Val.num] at h; rw [flt_eq h]
  | str a b => intro h; simp [pyEq] at h; rw [h]
  | bytes a b => intro h; simp [pyEq] at h; rw [h]
  | cls a b => intro h; simp [pyEq] at h; rw [h]
  | list l m _ ih => intro h; simp only [pyEq] at h; rw [items_eq l m ih h]
  | array l m _ ih => intro h; simp only [pyEq] at h; rw [items_eq l m ih h]
  | dict l m hk hn _ ih => intro h; simp only [pyEq, Bool.and_eq_true] at h; rw [fields_eq l m [] hk hn ih h.2]
  | msg s t l m hk hn _ ih => intro h; simp only [pyEq, Bool.and_eq_true, decide_eq_true_eq] at h; rw [h.1.1, fields_eq l m [] hk hn ih h.2]

/-! ### The comparison of texts -/

mutual

theorem same_refl : ∀ j : Json, j.same j = true
  | .null => rfl
  | .bool _ => by simp [Json.same]
  | .int _ => by simp [Json.same]
  | .float _ => by simp [Json.same]
  | .str _ => by simp [Json.same]
  | .arr l => by simp [Json.same, sameItems_refl l]
  | .obj l => by simp [Json.same, sameEntries_refl l]

theorem sameItems_refl : ∀ l : List Json, sameItems l l = true
  | [] => rfl
  | x :: l => by simp [sameItems, same_refl x, sameItems_refl l]

theorem sameEntries_refl : ∀ l : List (String × Json), sameEntries l l = true
  | [] => rfl
  | (k, x) :: l => by simp [sameEntries, same_refl x, sameEntries_refl l]
end

mutual

theorem same_eq : ∀ i j : Json, i.same j = true → i = j
  | .null, .null, _ => rfl
  | .bool a, .bool b, h => by simp [Json.same] at h; rw [h]
  | .int a, .int b, h => by simp [Json.same] at h; rw [h]
  | .float a, .float b, h => by simp [Json.same] at h; rw [h]
  | .str a, .str b, h => by simp [Json.same] at h; rw [h]
  | .arr a, .arr b, h => by rw [sameItems_eq a b (by simpa [Json.same] using h)]
  | .obj a, .obj b, h => by rw [sameEntries_eq a b (by simpa [Json.same] using h)]
  | .null, .bool _, h | .null, .int _, h | .null, .float _, h | .null, .str _, h | .null, .arr _, h | .null, .obj _, h => by simp [Json.same] at h
  | .bool _, .null, h | .bool _, .int _, h | .bool _, .float _, h | .bool _, .str _, h | .bool _, .arr _, h | .bool _, .obj _, h => by simp [Json.same] at h
  | .int _, .null, h | .int _, .bool _, h | .int _, .float _, h | .int _, .str _, h | .int _, .arr _, h | .int _, .obj _, h => by simp [Json.same] at h
  | .float _, .null, h | .float _, .bool _, h | .float _, .int _, h | .float _, .str _, h | .float _, .arr _, h | .float _, .obj _, h => by simp [Json.same] at h
  | .str _, .null, h | .str _, .bool _, h | .str _, .int _, h | .str _, .float _, h | .str _, .arr _, h | .str _, .obj _, h => by simp [Json.same] at h
  | .arr _, .null, h | .arr _, .bool _, h | .arr _, .int _, h | .arr _, .float _, h | .arr _, .str _, h | .arr _, .obj _, h => by simp [Json.same] at h
  | .obj _, .null, h | .obj _, .bool _, h | .obj _, .int _, h | .obj _, .float _, h | .obj _, .str _, h | .obj _, .arr _, h => by simp [Json.same] at h

theorem sameItems_eq : ∀ a b : List Json, sameItems a b = true → a = b
  | [], [], _ => rfl
  | [], _ :: _, h => by simp [sameItems] at h
  | _ :: _, [], h => by simp [sameItems] at h
  | x :: a, y :: b, h => by
    simp only [sameItems, Bool.and_eq_true] at h
    rw [same_eq x y h.1, sameItems_eq a b h.2]

theorem sameEntries_eq : ∀ a b : List (String × Json), sameEntries a b = true → a = b
  | [], [], _ => rfl
  | [], _ :: _, h => by simp [sameEntries] at h
  | _ :: _, [], h => by simp [sameEntries] at h
  | (k, x) :: a, (l, y) :: b, h => by
    simp only [sameEntries, Bool.and_eq_true, decide_eq_true_eq] at h
    rw [h.1.1, same_eq x y h.1.2, sameEntries_eq a b h.2]
end

/-! ### Compatible types write alike -/

theorem serTy_compat (msg : String → List (String × Val) → Option Json) : ∀ (t s : Ty), compatTy t s = true → ∀ v, serTy msg t v = serTy msg s v := by
  intro t
  induction t with
  | list e es max strict ih =>
    intro s h v
    cases s <;> simp only [compatTy, Bool.false_eq_true, Bool.and_eq_true] at h
    have : ∀ v, serTy msg e v = serTy msg _ v := ih _ h.2
    cases v <;> simp only [serTy]
    rw [funext this]
  | dict e es max strict ih =>
    intro s h v
    cases s <;> simp only [compatTy, Bool.false_eq_true, Bool.and_eq_true] at h
    have : ∀ v, serTy msg e v = serTy msg _ v := ih _ h.2
    cases v <;> simp only [serTy]
    rw [funext this]
  | rosMsg n i =>
    intro s h v
    cases s <;> simp only [compatTy, Bool.false_eq_true, Bool.and_eq_true, decide_eq_true_eq] at h
    rw [h.2]
    cases v <;> rfl
  | _ =>
    intro s h v
    cases s <;> simp only [compatTy, Bool.false_eq_true] at h
    cases v <;> rfl

theorem ser_compat (env : Env) (n : Nat) (t s : Ty) (h : compatTy t s = true) (v : Val) : ser env n t v = ser env n s v := by
  cases n with
  | zero => exact serTy_compat _ t s h v
  | succ n => exact serTy_compat _ t s h v

theorem clean_compat : ∀ (t s : Ty), compatTy t s = true → ∀ v, clean t v = clean s v := by
  intro t s h v
  cases t <;> cases s <;> simp only [compatTy, Bool.false_eq_true] at h <;> cases v <;> rfl

/-! ### C97 -/

theorem modify_keys {K V : Type} [DecidableEq K] (k : K) (f : V → V) : ∀ d : List (K × V), (modify k f d).map (·.1) = d.map (·.1)
  | [] => rfl
  | (l, v) :: d => by
    simp only [modify]
    split
    · rfl
    · simp [modify_keys k f d]

theorem pairs_modify (s : Nat) (x : Conn) : ∀ (cs : List (Nat × List Conn)), (cs.lookup s).isSome = true → (pairs (modify s (· ++ [x]) cs)).Perm (pairs cs ++ [(s, x)])
  | [], h => by simp at h
  | (l, xs) :: cs, h => by
    simp only [modify]
    split
    · rename_i e
      subst e
      simp only [pairs, List.flatMap_cons, List.map_append, List.map_cons, List.map_nil, List.append_assoc]
      exact List.Perm.append_left _ (List.perm_append_comm)
    · rename_i e
      have : (s == l) = false := by simpa using fun h => e h.symm
      simp only [List.lookup, this] at h
      simp only [pairs, List.flatMap_cons, List.append_assoc]
      exact List.Perm.append_left _ (pairs_modify s x cs h)

theorem pairs_connect : ∀ (ws : List Wire) (cs cs' : List (Nat × List Conn)), connect ws cs = some cs' → (pairs cs').Perm (pairs cs ++ ws.map fun w => (w.source, w.conn))
  | [], cs, cs', h => by cases h; simp
  | w :: ws, cs, cs', h => by
    simp only [connect] at h
    split at h
    · rename_i hs
      have h1 := pairs_connect ws _ _ h
      refine h1.trans ?_
      have h2 := pairs_modify w.source w.conn cs hs
      refine (List.Perm.append_right _ h2).trans ?_
      simp
    · cases h

theorem wiringData_place {env : Env} {n : Nat} {f : Flow} {s : Nat} {x : Conn} {d : WiringData} (h : f.wiringData env n s x = some d) : d.source = s ∧ d.conn = x := by
  unfold Flow.wiringData at h
  split at h
  · split at h
    · cases h; exact ⟨rfl, rfl⟩
    · cases h
  · cases h; exact ⟨rfl, rfl⟩

theorem mapM_places {env : Env} {n : Nat} {f : Flow} : ∀ (l : List (Nat × Conn)) (ds : List WiringData), l.mapM (fun p => f.wiringData env n p.1 p.2) = some ds →
    ds.map (fun d => (d.source, d.conn)) = l
  | [], ds, h => by simp at h; rw [h]; rfl
  | p :: l, ds, h => by
    simp only [List.mapM_cons] at h
    cases h1 : f.wiringData env n p.1 p.2 with
    | none => rw [h1] at h; cases h
    | some d =>
      cases h2 : l.mapM (fun p => f.wiringData env n p.1 p.2) with
      | none => rw [h1, h2] at h; cases h
      | some r =>
        rw [h1, h2] at h
        cases h
        have := wiringData_place h1
        simp [mapM_places l r h2, this.1, this.2]

/-- C97: what is published lists every wiring of the tree once. -/
theorem c97_lists (env : Env) (n : Nat) (f f' : Flow) (nodes : List (Nat × NodeData)) (wires : List Wire) (h : f.initialize nodes wires = some f') (ds : List WiringData)
    (hd : f'.allWiringData env n = some ds) : (ds.map fun d => (d.source, d.conn)).Perm (wires.map fun w => (w.source, w.conn)) := by
  unfold Flow.initialize at h
  cases hc : connect wires (nodes.map fun p => (p.1, [])) with
  | none => rw [hc] at h; cases h
  | some cs =>
    rw [hc] at h
    cases h
    rw [mapM_places _ _ hd]
    have := pairs_connect _ _ _ hc
    have e : ∀ l : List (Nat × NodeData), pairs (l.map fun p => (p.1, ([] : List Conn))) = [] := by
      intro l
      induction l with
      | nil => rfl
      | cons a l ih => simp [pairs]
    rw [e, List.nil_append] at this
    exact this

/-- C97: in an execution as in C51, the value that a node has set (and that has not been reset since) is published as it is for each wiring of its output, and is published as the current one
unless the input holds an equal value that is written differently. -/
theorem c97_current_partial (env : Env) (n : Nat) (f : Flow) (h1 : OneSource f.conns) (h2 : IncomingApart f) (h3 : DynamicOutputs f) (es : List Ev)
    (hc : Careful (started f) es) (y : Sys) (hr : (started f).run es = some y) (s : Nat) (xs : List Conn) (x : Conn) (hx : y.flow.conns.lookup s = some xs) (hm : x ∈ xs)
    (hi : y.phase s = .idle) (c t : Cont) (v w : Val) (ho : y.flow.output s x.sourceKey = some c) (hv : c.value = some v) (hk : clean c.ty v = v)
    (ht : y.flow.input x.target x.targetKey = some t) (hw : t.value = some w) (hcomp : compatTy t.ty c.ty = true) (ha : Alike w v) (d : WiringData)
    (hd : y.flow.wiringData env n s x = some d) : d.current = true ∧ d.data = ser env n c.ty v := by
  obtain ⟨t', w', e1, e2, e3⟩ := c51_in_sync_partial f h1 h2 h3 es hc y hr s xs x hx hm hi c v ho hv
  rw [ht] at e1
  cases e1
  rw [hw] at e2
  cases e2
  rw [Same, clean_compat _ _ hcomp, hk] at e3
  have hwv : w = v := by
    rcases e3 with e | e
    · exact e
    · exact alike_eq ha e
  subst hwv
  unfold Flow.wiringData at hd
  rw [ho, ht] at hd
  simp only [Cont.serializeValue, hv, hw, ser_compat env n t.ty c.ty hcomp] at hd
  cases hj : ser env n c.ty w with
  | none => rw [hj] at hd; cases hd
  | some j =>
    rw [hj] at hd
    cases hd
    exact ⟨same_refl j, rfl⟩

/-- C97: the value of an output can be read from what is published about it, and what is published as the current value of an input is: either both ends have no value, or both hold the same. -/
theorem c97_sound_partial (env : Env) (hc : env.Consistent) (f : Flow) (s : Nat) (x : Conn) (c t : Cont) (ho : f.output s x.sourceKey = some c)
    (ht : f.input x.target x.targetKey = some t) (hty : t.ty = c.ty) (hw : ∀ v, c.value = some v → Writable env c.ty v) (hw' : ∀ v, t.value = some v → Writable env t.ty v) :
    ∃ n, ∀ m, n ≤ m → ∃ d, f.wiringData env m s x = some d ∧ (d.current = true ↔ c.value = t.value) ∧ d.data.bind (deser env m c.ty) = c.value := by
  have key : ∀ k : Cont, (∀ v, k.value = some v → Writable env k.ty v) → ∃ n, ∀ m, n ≤ m → ∃ j, k.serializeValue env m = some j ∧
      ∀ v, k.value = some v → ∃ i, j = some i ∧ deser env m k.ty i = some v := by
    intro k hk
    cases hv : k.value with
    | none => exact ⟨0, fun m _ => ⟨none, by simp [Cont.serializeValue, hv], by simp⟩⟩
    | some v =>
      obtain ⟨n, h⟩ := c50_value_partial env hc k.ty v (hk v hv)
      refine ⟨n, fun m hm => ?_⟩
      obtain ⟨j, j1, j2⟩ := h m hm
      refine ⟨some j, by simp [Cont.serializeValue, hv, j1], fun v' hv' => ?_⟩
      cases hv'
      exact ⟨j, rfl, j2⟩
  obtain ⟨n1, k1⟩ := key c hw
  obtain ⟨n2, k2⟩ := key t hw'
  refine ⟨max n1 n2, fun m hm => ?_⟩
  obtain ⟨a, a1, a2⟩ := k1 m (by omega)
  obtain ⟨b, b1, b2⟩ := k2 m (by omega)
  refine ⟨⟨s, x, a, sameText a b⟩, by simp [Flow.wiringData, ho, ht, a1, b1], ?_, ?_⟩
  case refine_2 =>
    dsimp only
    cases hv : c.value with
    | none =>
      simp [Cont.serializeValue, hv] at a1
      subst a1
      rfl
    | some v =>
      obtain ⟨i, rfl, i2⟩ := a2 v hv
      exact i2
  dsimp only
  constructor
  · intro h
    cases hv : c.value with
    | none =>
      cases hv' : t.value with
      | none => rfl
      | some w =>
        obtain ⟨i, rfl, _⟩ := b2 w hv'
        simp [Cont.serializeValue, hv] at a1
        subst a1
        simp [sameText] at h
    | some v =>
      obtain ⟨i, rfl, i2⟩ := a2 v hv
      cases hv' : t.value with
      | none =>
        simp [Cont.serializeValue, hv'] at b1
        subst b1
        simp [sameText] at h
      | some w =>
        obtain ⟨j, rfl, j2⟩ := b2 w hv'
        have := same_eq i j h
        subst this
        rw [hty, i2] at j2
        exact j2
  · intro h
    have : a = b := by
      have e : c.serializeValue env m = t.serializeValue env m := by unfold Cont.serializeValue; rw [h, hty]
      rw [a1, b1] at e
      exact Option.some.inj e
    subst this
    cases a with
    | none => rfl
    | some j => exact same_refl j

/-- C97: if all values at the ends of wirings can be written, the data is published. A wiring of which an end is missing is published too. -/
theorem c97_published_partial (env : Env) (hc : env.Consistent) (f : Flow)
    (hw : ∀ p ∈ pairs f.conns, (∀ c v, f.output p.1 p.2.sourceKey = some c → c.value = some v → Writable env c.ty v) ∧
      ∀ c v, f.input p.2.target p.2.targetKey = some c → c.value = some v → Writable env c.ty v) :
    ∃ n, ∀ m, n ≤ m → ∃ ds, f.allWiringData env m = some ds ∧ ds.length = (pairs f.conns).length := by
  have key : ∀ k : Cont, (∀ v, k.value = some v → Writable env k.ty v) → ∃ n, ∀ m, n ≤ m → ∃ j, k.serializeValue env m = some j := by
    intro k hk
    cases hv : k.value with
    | none => exact ⟨0, fun m _ => ⟨none, by simp [Cont.serializeValue, hv]⟩⟩
    | some v =>
      obtain ⟨n, h⟩ := c50_value_partial env hc k.ty v (hk v hv)
      refine ⟨n, fun m hm => ?_⟩
      obtain ⟨j, j1, j2⟩ := h m hm
      exact ⟨some j, by simp [Cont.serializeValue, hv, j1]⟩
  unfold Flow.allWiringData
  generalize pairs f.conns = l at hw
  induction l with
  | nil => exact ⟨0, fun m _ => ⟨[], rfl, rfl⟩⟩
  | cons p l ih =>
    obtain ⟨n0, h0⟩ := ih fun q hq => hw q (List.mem_cons_of_mem _ hq)
    have hp : ∃ n, ∀ m, n ≤ m → ∃ d, f.wiringData env m p.1 p.2 = some d := by
      obtain ⟨w1, w2⟩ := hw p List.mem_cons_self
      unfold Flow.wiringData
      cases ho : f.output p.1 p.2.sourceKey with
      | none => exact ⟨0, fun m _ => ⟨_, rfl⟩⟩
      | some c =>
        cases ht : f.input p.2.target p.2.targetKey with
        | none => exact ⟨0, fun m _ => ⟨_, rfl⟩⟩
        | some t =>
          obtain ⟨n1, k1⟩ := key c (w1 c · ho)
          obtain ⟨n2, k2⟩ := key t (w2 t · ht)
          refine ⟨max n1 n2, fun m hm => ?_⟩
          obtain ⟨a, a1⟩ := k1 m (by omega)
          obtain ⟨b, b1⟩ := k2 m (by omega)
          simp only [a1, b1]
          exact ⟨_, rfl⟩
    obtain ⟨n1, h1⟩ := hp
    refine ⟨max n0 n1, fun m hm => ?_⟩
    obtain ⟨ds, e1, e2⟩ := h0 m (by omega)
    obtain ⟨d, e3⟩ := h1 m (by omega)
    refine ⟨d :: ds, ?_, by simp [e2]⟩
    rw [List.mapM_cons, e3, e1]
    rfl

/-- Nothing is published at all if there is a wiring whose ends cannot be written. -/
theorem c97_raises (env : Env) (n : Nat) (f : Flow) (s : Nat) (x : Conn) (c t : Cont) (hx : (s, x) ∈ pairs f.conns) (ho : f.output s x.sourceKey = some c)
    (ht : f.input x.target x.targetKey = some t) (v : Val) (hv : c.value = some v) (hs : ser env n c.ty v = none) : f.allWiringData env n = none := by
  have h0 : f.wiringData env n s x = none := by simp [Flow.wiringData, ho, ht, Cont.serializeValue, hv, hs]
  unfold Flow.allWiringData
  generalize pairs f.conns = l at hx
  induction l with
  | nil => cases hx
  | cons p l ih =>
    rw [List.mapM_cons]
    rcases List.mem_cons.1 hx with rfl | h
    · rw [h0]; rfl
    · rw [ih h]
      cases f.wiringData env n p.1 p.2 <;> rfl

/-! ### Samples and witnesses -/

/-- A dictionary of numbers. -/
def counts : Cont := ⟨.dict (.int 0 99) true 10 false, true, false, false, none, false⟩

/-- A wired dictionary of numbers. -/
def table : Flow := ⟨[(0, ⟨[], [("out", counts)]⟩), (1, ⟨[("in", counts)], []⟩)], [(0, [⟨"out", 1, "in"⟩]), (1, [])], [], []⟩

/-- Violation of C97: from the moment that a node has set a dictionary of numbers which is wired, publishing the data raises an exception. -/
theorem c97_dict_raises (env : Env) (n : Nat) (k : String) (i : Int) (hi : 0 ≤ i ∧ i ≤ 99) :
    (table.setup.run [.begin 0, .write 0 "out" (.dict [(k, .int i)]), .finish 0]).allWiringData env n = none := by
  have hck : check (.dict (.int 0 99) true 10 false) (.dict [(k, .int i)]) = .ok := by
    have h1 : ¬ i < 0 := by omega
    have h2 : ¬ i > 99 := by omega
    simp [check, checkItems, checkAll, checkLength, h1, h2]
  refine c97_raises env n _ 0 ⟨"out", 1, "in"⟩ { counts with value := some (.dict [(k, .int i)]), updated := true }
    { counts with value := some (.dict [(k, .int i)]), updated := true } ?_ ?_ ?_ (.dict [(k, .int i)]) rfl (c50_dict_raises env n 0 99 true false k i [] 10)
  all_goals
    simp [Flow.run, Flow.step, Flow.begin, Flow.write, Flow.finish, Flow.setup, Flow.allOutputs, Flow.allInputs, Flow.pushOutputs, pushConns, pushOutgoing, Flow.deliver, Flow.setInput,
      Flow.setOutput, Flow.output, Flow.input, table, counts, modify, mapAll, List.lookup, Cont.set, hck, clean, Cont.assign, Cont.resetUpdated, Cont.resetValue, Cont.flagUpdated, pairs]

/-- Violation of C97: an integer output that is reset and then set to `True` after `1` is published as not current, although the input holds an equal value and keeps it. -/
theorem c97_true_is_one (env : Env) (n : Nat) :
    ((pair.setup.run [.begin 0, .write 0 "out" (.int 1), .finish 0]).wiringData env n 0 ⟨"out", 1, "in"⟩).map (·.current) = some true ∧
    ((pair.setup.run [.begin 0, .write 0 "out" (.int 1), .finish 0, .reset 0, .begin 0, .write 0 "out" (.bool true), .finish 0]).wiringData env n 0 ⟨"out", 1, "in"⟩).map (·.current) = some false := by
  cases n <;> exact ⟨rfl, rfl⟩

/-- For `c97_lists`: two wirings of one output and one of another node. -/
example : ((⟨[], [], [], []⟩ : Flow).initialize [(0, ⟨[], [("out", num)]⟩), (1, ⟨[("in", num), ("other", num)], [("out", num)]⟩)]
    [⟨1, "out", 1, "other"⟩, ⟨0, "out", 1, "in"⟩, ⟨0, "out", 1, "other"⟩]).map (fun f => (f.allWiringData sampleEnv 0).map (·.map fun d => (d.source, d.conn, d.current))) =
    some (some [(0, ⟨"out", 1, "in"⟩, true), (0, ⟨"out", 1, "other"⟩, true), (1, ⟨"out", 1, "other"⟩, true)]) := by decide

/-- For `c97_current_partial`: the value 5 is written and finished. -/
example : (started pair).run [.begin 0, .write 0 "out" (.int 5), .finish 0] ≠ none ∧ Alike (.int 5) (.int 5) ∧ compatTy num.ty num.ty = true := by
  refine ⟨?_, .int 5 5, by decide⟩
  intro h
  have := congrArg Option.isSome h
  revert this
  decide

/-- For `c97_sound_partial`: an output that has been set, wired to an input that still holds another value, is not current. -/
example : ((pair.setup.run [.begin 0, .write 0 "out" (.int 5), .finish 0, .begin 0, .write 0 "out" (.int 6)]).wiringData sampleEnv 0 0 ⟨"out", 1, "in"⟩).map (·.current) = some false := by decide

end Verif.Data
