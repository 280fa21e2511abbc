import Verif.Nodes.Fields
import Verif.BT.Sem

/-!
# C132: a Service node answers what its inputs ask

`Verif/Ros/Service.lean` treats requests and responses as numbers and the flags of inputs as given. Here the class `Service` of `ros_nodes/service.py` is
modelled with its inputs and outputs: the request is made of the inputs, the response is put to the outputs.
-/

set_option autoImplicit false

namespace Verif.Ros.Rpc

open Verif.Data Verif.Nodes
open Verif.BT (BTState Op Res accepts allowedAfter)

/-! ### The model -/

/-- The fields of a request or response and their values. -/
abbrev Msg := List (String × Val)

/-- A service type: the fields of the request and the names of the fields of the response (service.py 345-352). -/
structure Srv where
  req : List (String × Field)
  resp : List String

/-- A Service node: `state`, `_service_client` (here: the name it was created with), `_service_request_future` (here: the number of the call),
`_input_request` (service.py 80-82, 107-110), the inputs and outputs, and (not in the code) all calls that were made, with name and request. The times
are left out, see C57. -/
structure Node where
  state : BTState
  client : Option String
  future : Option Nat
  input : Option Msg
  data : NodeData
  sent : List (String × Msg)

/-- What the future says (service.py 187-195). -/
inductive Fut
  | pending | done | cancelled
  deriving DecidableEq, Repr

/-- The outside world during an operation: `_do_setup` succeeds (112-131), `destroy_client` succeeds, `create_client` raises, the future, is the time of
the call over (197-213), do the outputs reach their targets (node.py 474-480). -/
structure World where
  setupOk : Bool := true
  destroyOk : Bool := true
  createRaises : Bool := false
  fut : Fut := .pending
  late : Bool := false
  pushOk : Bool := true

/-- What a hook leaves behind and answers (`none`: an exception). -/
abbrev Ret := Node × Option Res

/-- `match x: case Err(e): return Err(e); case Ok(_): pass`, then the rest of the hook. -/
def andThen (x : Ret) (k : Node → Ret) : Ret :=
  match x.2 with
  | some (.ok _) => k x.1
  | _ => x

/-- service.py 217-223 -/
def doUntick (n : Node) : Ret := ({ n with future := none, input := none }, some (.ok .idle))

/-- service.py 225-234 -/
def doReset (w : World) (n : Node) : Ret :=
  match n.client with
  | none => doUntick n
  | some _ => if w.destroyOk then doUntick { n with client := none } else (n, some .err)

/-- service.py 280-288 (`get_request`; the loop is the one of `FieldsToMessage`) and 146-150, 157-161. -/
def fetch (K : Srv) (n : Node) : Ret :=
  match fill n.data K.req with
  | .vals m => ({ n with input := some m }, some (.ok .idle))
  | .err => (n, some .err)
  | .raise => (n, none)

/-- service.py 135: `"service_name", *self.request_fields` -/
def keys (K : Srv) : List String := "service_name" :: K.req.map (·.1)

/-- service.py 134-150 -/
def refresh (K : Srv) (w : World) (n : Node) : Ret :=
  match anyUpdated n.data (keys K) with
  | none => (n, some .err)
  | some true => andThen (doReset w n) (fetch K)
  | some false => (n, some (.ok .idle))

/-- service.py 152-161 -/
def first (K : Srv) (n : Node) : Ret :=
  if n.state = .idle ∧ n.future = none ∧ n.input = none then fetch K n else (n, some (.ok .idle))

/-- service.py 163-173 -/
def connect (w : World) (n : Node) : Ret :=
  match n.client with
  | some _ => (n, some (.ok .idle))
  | none =>
    match valueAs asStr n.data "service_name" with
    | none => (n, some .err)
    | some c => if w.createRaises then (n, none) else ({ n with client := some c }, some (.ok .idle))

/-- service.py 294-303: `set_outputs`. -/
def setOutputs (K : Srv) (r : Msg) (n : Node) : Ret :=
  match pick r K.resp with
  | none => (n, some .err)
  | some l => ({ n with data := (putAll n.data l .succeeded).data }, (putAll n.data l .succeeded).res)

/-- service.py 175-215. `answer i` is the response to the call with number `i` (`none`: `None`). -/
def poll (K : Srv) (answer : Nat → Option Msg) (w : World) (n : Node) : Ret :=
  match n.input with
  | some m => ({ n with future := some n.sent.length, input := none, sent := n.sent ++ [(n.client.getD "", m)] }, some (.ok .running))
  | none =>
    match n.future with
    | none => (n, some (.ok n.state))
    | some i =>
      match w.fut with
      | .done =>
        match answer i with
        | none => (n, some .err)
        | some r => setOutputs K r { n with future := none }
      | .cancelled => ({ n with future := none }, some (.ok .failed))
      | .pending => if w.late then ({ n with future := none }, some (.ok .failed)) else (n, some (.ok .running))

/-- service.py 133-173 -/
def prep (K : Srv) (w : World) (n : Node) : Ret := andThen (andThen (refresh K w n) (first K)) (connect w)

/-- service.py 133-215 -/
def doTick (K : Srv) (answer : Nat → Option Msg) (w : World) (n : Node) : Ret := andThen (prep K w n) (poll K answer w)

/-- The node at the beginning of the hook of `tick` (node.py 440-442). -/
def begin (n : Node) : Node := { n with data := { n.data with outputs := mapAll Cont.resetUpdated n.data.outputs } }

/-- node.py 423-482 -/
def tick (K : Srv) (answer : Nat → Option Msg) (w : World) (n : Node) : Ret :=
  if accepts .tick n.state then
    if n.data.inputs.all (·.2.value.isSome) then
      let x := doTick K answer w (begin n)
      match x.2 with
      | none => x
      | some .err => ({ x.1 with state := .broken }, some .err)
      | some (.ok s) =>
        let m := { x.1 with state := s, data := { x.1.data with inputs := mapAll Cont.resetUpdated x.1.data.inputs } }
        if allowedAfter .tick s then if w.pushOk then (m, some (.ok s)) else ({ m with state := .broken }, some .err) else (m, some .err)
    else ({ n with state := .broken }, some .err)
  else (n, some .err)

/-- The state after the hook of another operation (node.py 374-390, 539-559, 611-626, 672-686). -/
def close (op : Op) (x : Ret) : Ret :=
  match x.2 with
  | none => x
  | some .err => ({ x.1 with state := .broken }, some .err)
  | some (.ok s) => ({ x.1 with state := s }, some (if allowedAfter op s then .ok s else .err))

/-- node.py 353-390 and service.py 107-131. The values of dynamic inputs are forgotten, all inputs are flagged. -/
def setup (w : World) (n : Node) : Ret :=
  if accepts .setup n.state then
    let d : NodeData := ⟨mapAll (fun c => c.resetValue.flagUpdated) n.data.inputs, mapAll (fun c => c.resetValue.resetUpdated) n.data.outputs⟩
    close .setup ({ n with client := none, future := none, input := none, data := d }, some (if w.setupOk then .ok .idle else .err))
  else (n, some .err)

/-- node.py 531-558 -/
def untick (n : Node) : Ret :=
  if accepts .untick n.state then
    let x := close .untick (doUntick n)
    ({ x.1 with data := { x.1.data with outputs := mapAll Cont.resetUpdated x.1.data.outputs } }, x.2)
  else (n, some .err)

/-- node.py 593-626 -/
def reset (w : World) (n : Node) : Ret :=
  if accepts .reset n.state then
    let d : NodeData := ⟨mapAll Cont.flagUpdated n.data.inputs, mapAll (fun c => c.resetValue.resetUpdated) n.data.outputs⟩
    close .reset (doReset w { n with data := d })
  else (n, some .err)

/-- node.py 668-713 and service.py 236-237 -/
def shutdown (w : World) (n : Node) : Ret :=
  if n.state = .shutdown then (n, some (.ok .shutdown))
  else close .shutdown (andThen (doReset w n) fun n => (n, some (.ok .shutdown)))

/-- The operations. -/
def run (K : Srv) (answer : Nat → Option Msg) (op : Op) (w : World) (n : Node) : Ret :=
  match op with
  | .setup => setup w n
  | .tick => tick K answer w n
  | .untick => untick n
  | .reset => reset w n
  | .shutdown => shutdown w n

/-- A new node. -/
def new (d : NodeData) : Node := ⟨.uninitialized, none, none, none, d, []⟩

/-! ### Specification -/

/-- The inputs of the node ask for a call of the service `c` with the request `m`: every field of the request holds what it holds after being assigned the
value of the input of its name. -/
def Asks (K : Srv) (d : NodeData) (c : String) (m : Msg) : Prop :=
  value d "service_name" = some (.str c) ∧ m.map (·.1) = K.req.map (·.1) ∧
    ∀ q ∈ K.req.zip m, ∃ v, value d q.1.1 = some v ∧ q.1.2.store v = some q.2.2

/-- The outputs of the node show the response. -/
def Tells (K : Srv) (d : NodeData) (r : Msg) : Prop := ∀ k ∈ K.resp, ∃ v, r.lookup k = some v ∧ Shows d k v

/-- A value that is delivered does not equal one that has arrived since the last tick. -/
def Differs (d : NodeData) (k : String) (v : Val) : Prop :=
  ∀ c, d.inputs.lookup k = some c → c.updated = true → ∀ u, c.value = some u → pyEq u (clean c.ty v) = false

/-- The node has not been ticked since setup or reset. -/
def Untouched (n : Node) : Prop := n.state = .idle ∧ n.client = none ∧ n.input = none

/-- Executions: operations are called, and values are delivered to inputs. `calm`: after the first tick, no value is delivered that equals one that has
arrived since the last tick. -/
inductive Runs (K : Srv) (answer : Nat → Option Msg) (calm : Bool) : Node → Prop
  | new (d : NodeData) : Runs K answer calm (new d)
  | call {n : Node} (op : Op) (w : World) : Runs K answer calm n → Runs K answer calm (run K answer op w n).1
  | deliver {n : Node} (k : String) (v : Val) : Runs K answer calm n → (calm = true → Untouched n ∨ Differs n.data k v) →
      Runs K answer calm { n with data := deliver n.data k v }

/-! ### Lemmas -/

/-- The request that the model makes. -/
def Current (K : Srv) (d : NodeData) (c : String) (m : Msg) : Prop := valueAs asStr d "service_name" = some c ∧ fill d K.req = .vals m

theorem fill_asks {d : NodeData} : ∀ {fs : List (String × Field)} {m : Msg}, fill d fs = .vals m →
    m.map (·.1) = fs.map (·.1) ∧ ∀ q ∈ fs.zip m, ∃ v, value d q.1.1 = some v ∧ q.1.2.store v = some q.2.2 := by
  intro fs
  induction fs with
  | nil => intro m h; cases h; exact ⟨rfl, by simp⟩
  | cons p fs ih =>
    obtain ⟨k, F⟩ := p
    intro m h
    simp only [fill] at h
    cases hv : value d k with
    | none => simp [hv] at h
    | some v =>
      simp only [hv] at h
      cases hs : F.store v with
      | none => simp [hs] at h
      | some w =>
        simp only [hs] at h
        cases hf : fill d fs with
        | err => simp [hf] at h
        | raise => simp [hf] at h
        | vals ws =>
          simp only [hf] at h
          cases h
          obtain ⟨h1, h2⟩ := ih hf
          refine ⟨by simp [h1], ?_⟩
          intro q hq
          simp only [List.zip_cons_cons, List.mem_cons] at hq
          rcases hq with rfl | hq
          · exact ⟨v, hv, hs⟩
          · exact h2 q hq

theorem current_asks {K : Srv} {d : NodeData} {c : String} {m : Msg} (h : Current K d c m) : Asks K d c m := by
  obtain ⟨h1, h2⟩ := h
  refine ⟨?_, fill_asks h2⟩
  unfold valueAs at h1
  cases hv : value d "service_name" with
  | none => rw [hv] at h1; cases h1
  | some v =>
    rw [hv] at h1
    cases v with
    | str s => simp [asStr] at h1; rw [h1]
    | _ => cases h1

theorem fill_congr {d d' : NodeData} : ∀ {fs : List (String × Field)}, (∀ p ∈ fs, value d' p.1 = value d p.1) → fill d' fs = fill d fs := by
  intro fs
  induction fs with
  | nil => intro _; rfl
  | cons p fs ih =>
    intro h
    simp only [fill, h p List.mem_cons_self, ih fun q hq => h q (List.mem_cons_of_mem _ hq)]

theorem current_congr {K : Srv} {d d' : NodeData} (h : ∀ k ∈ keys K, value d' k = value d k) {c : String} {m : Msg} (hc : Current K d c m) :
    Current K d' c m := by
  refine ⟨?_, ?_⟩
  · rw [← hc.1, valueAs, valueAs, h _ List.mem_cons_self]
  · rw [← hc.2]
    exact fill_congr fun p hp => h _ (List.mem_cons_of_mem _ (List.mem_map_of_mem hp))

theorem shows_congr {d d' : NodeData} (h : ∀ k, outputValue d' k = outputValue d k) {k : String} {v : Val} (hs : Shows d k v) : Shows d' k v := by
  obtain ⟨w, h1, h2⟩ := hs
  exact ⟨w, (h k).trans h1, h2⟩

theorem tells_congr {K : Srv} {d d' : NodeData} (h : ∀ k, outputValue d' k = outputValue d k) {r : Msg} (ht : Tells K d r) : Tells K d' r := by
  intro k hk
  obtain ⟨v, h1, h2⟩ := ht k hk
  exact ⟨v, h1, shows_congr h h2⟩

theorem anyUpdated_false {d : NodeData} {ks : List String} (h : anyUpdated d ks = some false) :
    ∀ k ∈ ks, ∃ c, d.inputs.lookup k = some c ∧ c.updated = false := by
  induction ks with
  | nil => intro k hk; cases hk
  | cons k ks ih =>
    simp only [anyUpdated] at h
    cases hc : d.inputs.lookup k with
    | none => simp [hc] at h
    | some c =>
      simp only [hc] at h
      cases ha : anyUpdated d ks with
      | none => simp [ha] at h
      | some b =>
        simp only [ha, Option.map_some, Option.some.injEq, Bool.or_eq_false_iff] at h
        obtain ⟨h1, rfl⟩ := h
        intro k' hk'
        rcases List.mem_cons.1 hk' with rfl | hk'
        · exact ⟨c, hc, h1⟩
        · exact ih ha k' hk'

theorem anyUpdated_of {d : NodeData} {ks : List String} (h : ∀ k ∈ ks, ∃ c, d.inputs.lookup k = some c ∧ c.updated = false) :
    anyUpdated d ks = some false := by
  induction ks with
  | nil => rfl
  | cons k ks ih =>
    obtain ⟨c, h1, h2⟩ := h k List.mem_cons_self
    simp [anyUpdated, h1, h2, ih fun k hk => h k (List.mem_cons_of_mem _ hk)]

/-- A container that is given a value: it takes it, or keeps its value. -/
theorem set_cases (c : Cont) (v : Val) :
    (c.set v).1 = c ∨ (c.set v).1.updated = true ∨
      (c.set v).1.value = c.value ∧ ∃ u, c.value = some u ∧ pyEq u (clean c.ty v) = true := by
  unfold Cont.set
  split
  · unfold Cont.assign
    split
    · exact .inl rfl
    · cases hv : c.value with
      | none => exact .inr (.inl (by simp))
      | some u =>
        cases hp : pyEq u (clean c.ty v) with
        | false => exact .inr (.inl (by simp [hp]))
        | true => exact .inr (.inr ⟨by simp [hp], u, rfl, hp⟩)
  · exact .inl rfl

theorem deliver_lookup (d : NodeData) (k : String) (v : Val) (k' : String) :
    (deliver d k v).inputs.lookup k' = (d.inputs.lookup k').map fun c => if k' = k then (c.set v).1 else c := by
  unfold deliver
  split
  · rename_i h
    by_cases hk : k' = k
    · subst hk; simp [h]
    · cases d.inputs.lookup k' <;> simp [hk]
  · rename_i c h
    simp only [lookup_modify]
    by_cases hk : k' = k
    · subst hk; simp [h]
    · cases d.inputs.lookup k' <;> simp [hk]

theorem deliver_outputs (d : NodeData) (k : String) (v : Val) : (deliver d k v).outputs = d.outputs := by
  unfold deliver
  split <;> rfl

/-- If nothing is flagged after a delivery, nothing was and nothing has changed. -/
theorem deliver_quiet {d : NodeData} {k : String} {v : Val} (hd : Differs d k v) {ks : List String} (h : anyUpdated (deliver d k v) ks = some false) :
    anyUpdated d ks = some false ∧ ∀ k' ∈ ks, value (deliver d k v) k' = value d k' := by
  have key : ∀ k' ∈ ks, ∃ c, d.inputs.lookup k' = some c ∧ c.updated = false ∧ value (deliver d k v) k' = value d k' := by
    intro k' hk'
    obtain ⟨c', h1, h2⟩ := anyUpdated_false h k' hk'
    rw [deliver_lookup] at h1
    cases hc : d.inputs.lookup k' with
    | none => rw [hc] at h1; cases h1
    | some c =>
      rw [hc] at h1
      simp only [Option.map_some, Option.some.injEq] at h1
      refine ⟨c, rfl, ?_⟩
      have hval : value (deliver d k v) k' = c'.value := by simp [value, deliver_lookup, hc, h1]
      have hval' : value d k' = c.value := by simp [value, hc]
      rw [hval, hval']
      by_cases hk : k' = k
      · subst hk
        simp only [if_true] at h1
        rcases set_cases c v with hs | hs | ⟨hs, u, hu, hp⟩
        · rw [hs] at h1; subst h1; exact ⟨h2, rfl⟩
        · rw [h1, h2] at hs; cases hs
        · refine ⟨?_, by rw [← h1, hs]⟩
          cases hup : c.updated with
          | false => rfl
          | true => rw [hd c hc hup u hu] at hp; cases hp
      · simp only [hk, if_false] at h1
        subst h1
        exact ⟨h2, rfl⟩
  refine ⟨anyUpdated_of fun k' hk' => ?_, fun k' hk' => ?_⟩
  · obtain ⟨c, h1, h2, _⟩ := key k' hk'
    exact ⟨c, h1, h2⟩
  · obtain ⟨_, _, _, h3⟩ := key k' hk'
    exact h3

theorem set_ok {c : Cont} {v : Val} (h : (c.set v).2 = .ok) : ∃ w, (c.set v).1.value = some w ∧ Same w v := by
  unfold Cont.set at h ⊢
  split at h
  · unfold Cont.assign at h ⊢
    split at h
    · cases h
    · rename_i hs
      rw [if_neg hs]
      cases hv : c.value with
      | none => exact ⟨_, by simp, same_clean c.ty _ _ (.inl rfl)⟩
      | some w =>
        cases hp : pyEq w (clean c.ty v) with
        | false => exact ⟨_, by simp [hp], same_clean c.ty _ _ (.inl rfl)⟩
        | true => exact ⟨w, by simp [hp], same_clean c.ty _ _ (.inr hp)⟩
  · rename_i a hne
    exact absurd h hne

theorem put_inputs (d : NodeData) (k : String) (v : Val) (s : BTState) : (put d k v s).data.inputs = d.inputs := by
  unfold put
  split <;> rfl

theorem putAll_inputs (l : Msg) (s : BTState) : ∀ d : NodeData, (putAll d l s).data.inputs = d.inputs := by
  induction l with
  | nil => intro d; rfl
  | cons p l ih =>
    intro d
    simp only [putAll]
    split
    · rw [ih, put_inputs]
    · exact put_inputs ..

theorem put_ok {d : NodeData} {k : String} {v : Val} {s s' : BTState} (h : (put d k v s).res = some (.ok s')) : s' = s ∧ Shows (put d k v s).data k v := by
  unfold put at h ⊢
  split at h
  · cases h
  · rename_i c hc
    have hok : (c.set v).2 = .ok := by
      cases ha : (c.set v).2 <;> rw [ha] at h <;> first | rfl | cases h
    obtain ⟨w, h1, h2⟩ := set_ok hok
    rw [hok] at h
    refine ⟨by cases h; rfl, w, ?_, h2⟩
    simp [outputValue, lookup_modify, hc, h1]

theorem putAll_ok (l : Msg) (s : BTState) : ∀ {d : NodeData} {s' : BTState}, (l.map (·.1)).Nodup → (putAll d l s).res = some (.ok s') →
    s' = s ∧ ∀ p ∈ l, Shows (putAll d l s).data p.1 p.2 := by
  induction l with
  | nil => intro d s' _ h; cases h; exact ⟨rfl, by simp⟩
  | cons p l ih =>
    intro d s' hn h
    simp only [List.map_cons, List.nodup_cons] at hn
    simp only [putAll] at h ⊢
    cases hr : (put d p.1 p.2 s).res with
    | none => simp [hr] at h
    | some r =>
      cases r with
      | err => simp [hr] at h
      | ok s1 =>
        simp only [hr] at h ⊢
        obtain ⟨h1, h2⟩ := ih hn.2 h
        refine ⟨h1, ?_⟩
        intro q hq
        rcases List.mem_cons.1 hq with rfl | hq
        · obtain ⟨w, k1, k2⟩ := (put_ok hr).2
          refine ⟨w, ?_, k2⟩
          rw [← k1, outputValue, outputValue, putAll_other l s _ hn.1]
        · exact h2 q hq

theorem pick_names {r : Msg} : ∀ {ks : List String} {l : Msg}, pick r ks = some l → l.map (·.1) = ks ∧ ∀ p ∈ l, r.lookup p.1 = some p.2 := by
  intro ks
  induction ks with
  | nil => intro l h; cases h; exact ⟨rfl, by simp⟩
  | cons k ks ih =>
    intro l h
    simp only [pick] at h
    cases hv : r.lookup k with
    | none => simp [hv] at h
    | some v =>
      simp only [hv] at h
      cases hp : pick r ks with
      | none => simp [hp] at h
      | some l' =>
        simp only [hp, Option.map_some, Option.some.injEq] at h
        subst h
        obtain ⟨h1, h2⟩ := ih hp
        refine ⟨by simp [h1], ?_⟩
        intro p hq
        rcases List.mem_cons.1 hq with rfl | hq
        · exact hv
        · exact h2 p hq

/-! ### The invariant -/

/-- The call that the node has made last is the one that its inputs ask for. -/
def Asked (K : Srv) (n : Node) (i : Nat) : Prop := i + 1 = n.sent.length ∧ ∃ c m, n.sent[i]? = some (c, m) ∧ Current K n.data c m

/-- What the node has prepared, called and put out belongs to its inputs. -/
structure Now (K : Srv) (answer : Nat → Option Msg) (n : Node) : Prop where
  input : ∀ m, n.input = some m → fill n.data K.req = .vals m
  client : ∀ c, n.client = some c → valueAs asStr n.data "service_name" = some c
  future : ∀ i, n.future = some i → Asked K n i
  told : n.state = .succeeded → n.future = none → n.input = none → ∃ i r, Asked K n i ∧ answer i = some r ∧ Tells K n.data r

/-- The invariant. -/
structure Inv (K : Srv) (answer : Nat → Option Msg) (n : Node) : Prop where
  running : accepts .tick n.state = true → ∀ i, n.future = some i → n.state = .running
  now : accepts .tick n.state = true → anyUpdated n.data (keys K) = some false → Now K answer n

theorem andThen_ok {x : Ret} {k : Node → Ret} {s : BTState} (h : (andThen x k).2 = some (.ok s)) :
    (∃ s', x.2 = some (.ok s')) ∧ andThen x k = k x.1 := by
  unfold andThen at h ⊢
  split at h
  · rename_i s' hs; exact ⟨⟨s', hs⟩, rfl⟩
  · rename_i hx; exact absurd h (hx s)

theorem andThen_cases (x : Ret) (k : Node → Ret) : ((∃ s', x.2 = some (.ok s')) ∧ andThen x k = k x.1) ∨ ((∀ s', x.2 ≠ some (.ok s')) ∧ andThen x k = x) := by
  unfold andThen
  split
  · rename_i s' hs; exact .inl ⟨⟨s', hs⟩, rfl⟩
  · rename_i hx; exact .inr ⟨hx, rfl⟩

/-- Before the service is called, hooks do not touch state, data and calls. -/
structure Pre (n n' : Node) : Prop where
  state : n'.state = n.state
  data : n'.data = n.data
  sent : n'.sent = n.sent
  future : n'.future = none ∨ n'.future = n.future

theorem Pre.refl (n : Node) : Pre n n := ⟨rfl, rfl, rfl, .inr rfl⟩

theorem Pre.trans {a b c : Node} (h1 : Pre a b) (h2 : Pre b c) : Pre a c := by
  refine ⟨h2.state.trans h1.state, h2.data.trans h1.data, h2.sent.trans h1.sent, ?_⟩
  rcases h2.future with h | h
  · exact .inl h
  · rw [h]; exact h1.future

theorem pre_andThen {n : Node} {x : Ret} {k : Node → Ret} (h1 : Pre n x.1) (h2 : ∀ m, Pre m (k m).1) : Pre n (andThen x k).1 := by
  rcases andThen_cases x k with ⟨_, h⟩ | ⟨_, h⟩
  · rw [h]; exact h1.trans (h2 _)
  · rw [h]; exact h1

theorem pre_reset (w : World) (n : Node) : Pre n (doReset w n).1 := by
  unfold doReset doUntick
  split
  · exact ⟨rfl, rfl, rfl, .inl rfl⟩
  · split
    · exact ⟨rfl, rfl, rfl, .inl rfl⟩
    · exact .refl n

theorem pre_fetch (K : Srv) (n : Node) : Pre n (fetch K n).1 := by
  unfold fetch
  split <;> exact ⟨rfl, rfl, rfl, .inr rfl⟩

theorem pre_refresh (K : Srv) (w : World) (n : Node) : Pre n (refresh K w n).1 := by
  unfold refresh
  split
  · exact .refl n
  · exact pre_andThen (pre_reset w n) (pre_fetch K)
  · exact .refl n

theorem pre_first (K : Srv) (n : Node) : Pre n (first K n).1 := by
  unfold first
  split
  · exact pre_fetch K n
  · exact .refl n

theorem pre_connect (w : World) (n : Node) : Pre n (connect w n).1 := by
  unfold connect
  split
  · exact .refl n
  · split
    · exact .refl n
    · split
      · exact .refl n
      · exact ⟨rfl, rfl, rfl, .inr rfl⟩

theorem pre_prep (K : Srv) (w : World) (n : Node) : Pre n (prep K w n).1 :=
  pre_andThen (pre_andThen (pre_refresh K w n) (pre_first K)) (pre_connect w)

theorem fetch_now {K : Srv} {answer : Nat → Option Msg} {n : Node} (h : Now K answer n) {s : BTState} (hs : (fetch K n).2 = some (.ok s)) :
    Now K answer (fetch K n).1 ∧ (fetch K n).1.input ≠ none := by
  unfold fetch at hs ⊢
  split at hs
  · rename_i m hm
    exact ⟨⟨fun m' h' => by cases h'; exact hm, h.client, h.future, fun _ _ h3 => by cases h3⟩, by simp⟩
  · cases hs
  · cases hs

theorem fetch_input {K : Srv} {n : Node} (hc : n.client = none) (hf : n.future = none) {s : BTState} (hs : (fetch K n).2 = some (.ok s))
    (answer : Nat → Option Msg) : Now K answer (fetch K n).1 ∧ (fetch K n).1.input ≠ none := by
  unfold fetch at hs ⊢
  split at hs
  · rename_i m hm
    refine ⟨⟨fun m' h' => by cases h'; exact hm, fun c h => ?_, fun i h => ?_, fun _ _ h3 => by cases h3⟩, by simp⟩
    · dsimp only at h; rw [hc] at h; cases h
    · dsimp only at h; rw [hf] at h; cases h
  · cases hs
  · cases hs

theorem reset_clears {w : World} {n : Node} {s : BTState} (hs : (doReset w n).2 = some (.ok s)) : (doReset w n).1.client = none ∧ (doReset w n).1.future = none := by
  unfold doReset doUntick at hs ⊢
  split
  · rename_i h; exact ⟨h, rfl⟩
  · rename_i c h
    rw [h] at hs
    dsimp only at hs
    split at hs
    · rename_i hw; simp [hw]
    · cases hs

theorem refresh_now {K : Srv} {answer : Nat → Option Msg} {w : World} {n : Node} (hi : anyUpdated n.data (keys K) = some false → Now K answer n)
    {s : BTState} (hs : (refresh K w n).2 = some (.ok s)) : Now K answer (refresh K w n).1 := by
  unfold refresh at hs ⊢
  split at hs
  · cases hs
  · obtain ⟨⟨s', h1⟩, h2⟩ := andThen_ok hs
    rw [h2] at hs ⊢
    obtain ⟨k1, k2⟩ := reset_clears h1
    exact (fetch_input k1 k2 hs answer).1
  · rename_i h; exact hi h

theorem first_now {K : Srv} {answer : Nat → Option Msg} {n : Node} (h : Now K answer n) {s : BTState} (hs : (first K n).2 = some (.ok s)) :
    Now K answer (first K n).1 := by
  unfold first at hs ⊢
  split at hs
  · rename_i hc
    rw [if_pos hc]
    exact (fetch_now h hs).1
  · rename_i hc; rw [if_neg hc]; exact h

theorem connect_now {K : Srv} {answer : Nat → Option Msg} {w : World} {n : Node} (h : Now K answer n) {s : BTState} (hs : (connect w n).2 = some (.ok s)) :
    Now K answer (connect w n).1 ∧ (connect w n).1.client ≠ none := by
  unfold connect at hs ⊢
  split
  · rename_i c hc; exact ⟨h, by rw [hc]; simp⟩
  · rename_i hc
    rw [hc] at hs
    dsimp only at hs
    split at hs
    · cases hs
    · rename_i c hn
      split at hs
      · cases hs
      · rename_i hw
        rw [if_neg hw]
        exact ⟨⟨h.input, fun c' h' => by cases h'; exact hn, h.future, h.told⟩, by simp⟩

theorem prep_now {K : Srv} {answer : Nat → Option Msg} {w : World} {n : Node} (hi : anyUpdated n.data (keys K) = some false → Now K answer n)
    {s : BTState} (hs : (prep K w n).2 = some (.ok s)) : Now K answer (prep K w n).1 ∧ (prep K w n).1.client ≠ none := by
  unfold prep at hs ⊢
  obtain ⟨⟨s1, h1⟩, h2⟩ := andThen_ok hs
  rw [h2] at hs ⊢
  obtain ⟨⟨s2, h3⟩, h4⟩ := andThen_ok h1
  rw [h4] at h1 hs ⊢
  exact connect_now (first_now (refresh_now hi h3) h1) hs

/-- After the service has been called or asked, all belongs to the inputs. -/
theorem poll_now {K : Srv} (hK : K.resp.Nodup) {answer : Nat → Option Msg} {w : World} {n : Node} (h : Now K answer n) (hc : n.client ≠ none) {s : BTState}
    (hs : (poll K answer w n).2 = some (.ok s)) : Now K answer { (poll K answer w n).1 with state := s } ∧
      (∀ i, (poll K answer w n).1.future = some i → s = .running) ∧ (poll K answer w n).1.data.inputs = n.data.inputs := by
  cases hin : n.input with
  | some m =>
    simp only [poll, hin] at hs ⊢
    cases hs
    refine ⟨⟨fun m' h' => (by cases h'), h.client, fun i hi => ?_, fun h' => (by cases h')⟩, fun _ _ => (rfl), (by simp)⟩
    cases hi
    cases hcl : n.client with
    | none => exact absurd hcl hc
    | some c =>
      exact ⟨by simp, c, m, by simp, h.client c hcl, h.input m hin⟩
  | none =>
    cases hf : n.future with
    | none =>
      simp only [poll, hin, hf] at hs ⊢
      cases hs
      exact ⟨⟨fun m hm => (by cases hm), h.client, fun i hi => (by cases hi), fun h1 _ _ => h.told h1 hf hin⟩, fun i hi => (by cases hi), (by simp)⟩
    | some i =>
      have hasked := h.future i hf
      cases hw : w.fut with
      | pending =>
        simp only [poll, hin, hf, hw] at hs ⊢
        by_cases hl : w.late = true
        · rw [if_pos hl] at hs ⊢
          cases hs
          exact ⟨⟨fun m hm => h.input m (hm ▸ hin), h.client, fun j hj => (by cases hj), fun h' => (by cases h')⟩, fun j hj => (by cases hj), (by simp)⟩
        · rw [if_neg hl] at hs ⊢
          cases hs
          exact ⟨⟨h.input, h.client, h.future, fun h' => (by cases h')⟩, fun _ _ => rfl, rfl⟩
      | cancelled =>
        simp only [poll, hin, hf, hw] at hs ⊢
        cases hs
        exact ⟨⟨fun m hm => h.input m (hm ▸ hin), h.client, fun j hj => (by cases hj), fun h' => (by cases h')⟩, fun j hj => (by cases hj), (by simp)⟩
      | done =>
        simp only [poll, hin, hf, hw] at hs ⊢
        cases hr : answer i with
        | none => simp [hr] at hs
        | some r =>
          simp only [hr, setOutputs] at hs ⊢
          cases hp : pick r K.resp with
          | none => simp [hp] at hs
          | some l =>
            simp only [hp] at hs ⊢
            obtain ⟨p1, p2⟩ := pick_names hp
            obtain ⟨rfl, q2⟩ := putAll_ok l .succeeded (p1 ▸ hK) hs
            have hins := putAll_inputs l .succeeded n.data
            have hval : ∀ k ∈ keys K, value (putAll n.data l .succeeded).data k = value n.data k := by
              intro k _
              simp only [value, hins]
            have hcur : ∀ {c m}, Current K n.data c m → Current K (putAll n.data l .succeeded).data c m := fun hc => current_congr hval hc
            refine ⟨⟨fun m hm => ?_, fun c hcl => ?_, fun j hj => (by cases hj), fun _ _ _ => ⟨i, r, ?_, hr, ?_⟩⟩, fun j hj => (by cases hj), hins⟩
            · cases hm
            · have := h.client c hcl
              rw [← this]
              simp only [valueAs, hval _ List.mem_cons_self]
            · obtain ⟨h1, c, m, h2, h3⟩ := hasked
              exact ⟨h1, c, m, h2, hcur h3⟩
            · intro k hk
              rw [← p1] at hk
              obtain ⟨p, hp1, rfl⟩ := List.mem_map.1 hk
              exact ⟨p.2, p2 p hp1, q2 p hp1⟩

theorem now_congr {K : Srv} {answer : Nat → Option Msg} {n : Node} (h : Now K answer n) (d : NodeData) (hv : ∀ k ∈ keys K, value d k = value n.data k)
    (ho : ∀ k, outputValue d k = outputValue n.data k) : Now K answer { n with data := d } := by
  have hask : ∀ i, Asked K n i → Asked K { n with data := d } i := fun i ⟨h1, c, m, h2, h3⟩ => ⟨h1, c, m, h2, current_congr hv h3⟩
  refine ⟨fun m hm => ?_, fun c hc => ?_, fun i hi => hask i (h.future i hi), fun h1 h2 h3 => ?_⟩
  · rw [← h.input m hm]
    exact fill_congr fun p hp => hv _ (List.mem_cons_of_mem _ (List.mem_map_of_mem hp))
  · rw [← h.client c hc, valueAs, valueAs, hv _ List.mem_cons_self]
  · obtain ⟨i, r, k1, k2, k3⟩ := h.told h1 h2 h3
    exact ⟨i, r, hask i k1, k2, tells_congr ho k3⟩

theorem value_reset (d : NodeData) (k : String) : value { d with inputs := mapAll Cont.resetUpdated d.inputs } k = value d k := by
  simp only [value, lookup_mapAll]
  cases d.inputs.lookup k <;> rfl

theorem output_reset (d : NodeData) (k : String) : outputValue { d with outputs := mapAll Cont.resetUpdated d.outputs } k = outputValue d k := by
  simp only [outputValue, lookup_mapAll]
  cases d.outputs.lookup k <;> rfl

theorem flagged {d : NodeData} {f : Cont → Cont} (hf : ∀ c, (f c).updated = true) (os : List (String × Cont)) (K : Srv) :
    anyUpdated ⟨mapAll f d.inputs, os⟩ (keys K) ≠ some false := by
  intro h
  obtain ⟨c, h1, h2⟩ := anyUpdated_false h "service_name" List.mem_cons_self
  simp only [lookup_mapAll] at h1
  cases hc : d.inputs.lookup "service_name" with
  | none => rw [hc] at h1; cases h1
  | some c' =>
    rw [hc] at h1
    cases h1
    rw [hf] at h2
    cases h2

theorem prep_raised {K : Srv} {answer : Nat → Option Msg} {w : World} {n : Node} (hq : anyUpdated n.data (keys K) = some false) (h : Now K answer n)
    (hs : (prep K w n).2 = none) : Now K answer (prep K w n).1 := by
  have hr : refresh K w n = (n, some (.ok .idle)) := by simp [refresh, hq]
  unfold prep at hs ⊢
  rcases andThen_cases (andThen (refresh K w n) (first K)) (connect w) with ⟨⟨s, h1⟩, h2⟩ | ⟨_, h2⟩
  · rw [h2] at hs ⊢
    have h3 : andThen (refresh K w n) (first K) = first K n := by rw [hr]; rfl
    rw [h3] at h1 hs ⊢
    have := first_now h h1
    unfold connect at hs ⊢
    split
    · exact this
    · split
      · exact this
      · split
        · exact this
        · rename_i hc _ _ hn hw
          simp [hc, hn, hw] at hs
  · rw [h2] at hs ⊢
    have h3 : andThen (refresh K w n) (first K) = first K n := by rw [hr]; rfl
    rw [h3] at hs ⊢
    unfold first at hs ⊢
    split
    · rename_i hc
      rw [if_pos hc] at hs
      unfold fetch at hs ⊢
      split
      · rename_i hf; simp [hf] at hs
      · exact h
      · exact h
    · exact h

theorem poll_raised {K : Srv} {answer : Nat → Option Msg} {w : World} {n : Node} (h : Now K answer n) (hrun : ∀ i, n.future = some i → n.state = .running)
    (hs : (poll K answer w n).2 = none) : Now K answer (poll K answer w n).1 := by
  cases hin : n.input with
  | some m => simp [poll, hin] at hs
  | none =>
    cases hf : n.future with
    | none => simp [poll, hin, hf] at hs
    | some i =>
      cases hw : w.fut with
      | pending =>
        simp only [poll, hin, hf, hw] at hs
        split at hs <;> cases hs
      | cancelled => simp [poll, hin, hf, hw] at hs
      | done =>
        simp only [poll, hin, hf, hw] at hs ⊢
        cases hr : answer i with
        | none => simp [hr] at hs
        | some r =>
          simp only [hr, setOutputs] at hs ⊢
          cases hp : pick r K.resp with
          | none => simp [hp] at hs
          | some l =>
            simp only [hp] at hs ⊢
            have hins := putAll_inputs l .succeeded n.data
            refine ⟨fun m hm => (by cases hm), fun c hc => ?_, fun j hj => (by cases hj), fun h1 => ?_⟩
            · rw [← h.client c hc]
              simp only [valueAs, value, hins]
            · dsimp only at h1
              rw [hrun i hf] at h1
              cases h1

theorem poll_frame (K : Srv) (answer : Nat → Option Msg) (w : World) (n : Node) :
    (poll K answer w n).1.state = n.state ∧ (poll K answer w n).1.data.inputs = n.data.inputs ∧
      ((poll K answer w n).2 = none → (poll K answer w n).1.future = none) ∧ (poll K answer w n).1.input = none := by
  cases hin : n.input with
  | some m => simp [poll, hin]
  | none =>
    cases hf : n.future with
    | none => simp [poll, hin, hf]
    | some i =>
      cases hw : w.fut with
      | pending =>
        simp only [poll, hin, hf, hw]
        split <;> simp [hin]
      | cancelled => simp [poll, hin, hf, hw]
      | done =>
        simp only [poll, hin, hf, hw]
        cases hr : answer i with
        | none => simp [hin]
        | some r =>
          simp only [setOutputs]
          cases hp : pick r K.resp with
          | none => simp
          | some l => exact ⟨rfl, putAll_inputs .., fun _ => rfl, rfl⟩

/-- Flags of inputs do not depend on outputs. -/
theorem anyUpdated_inputs {d d' : NodeData} (h : d'.inputs = d.inputs) : ∀ ks : List String, anyUpdated d' ks = anyUpdated d ks := by
  intro ks
  induction ks with
  | nil => rfl
  | cons k ks ih => simp only [anyUpdated, h, ih]

theorem inv_tick {K : Srv} (hK : K.resp.Nodup) {answer : Nat → Option Msg} {n : Node} (hi : Inv K answer n) (w : World) : Inv K answer (tick K answer w n).1 := by
  have broken : ∀ m : Node, m.state = .broken → Inv K answer m := fun m hm => ⟨fun h => (by rw [hm] at h; cases h), fun h => (by rw [hm] at h; cases h)⟩
  unfold tick
  split
  · rename_i hacc
    split
    · -- the data at the beginning of the hook
      generalize hn0 : begin n = n₀
      have hst : n₀.state = n.state := by rw [← hn0]; rfl
      have hfut : n₀.future = n.future := by rw [← hn0]; rfl
      have hrun : ∀ i, n₀.future = some i → n₀.state = .running := fun i h => by rw [hst]; exact hi.running hacc i (hfut ▸ h)
      have hnow : anyUpdated n₀.data (keys K) = some false → Now K answer n₀ := by
        intro h
        rw [← hn0] at h ⊢
        exact now_congr (hi.now hacc ((anyUpdated_inputs (d := n.data) (d' := { n.data with outputs := mapAll Cont.resetUpdated n.data.outputs }) rfl _).symm.trans h)) _ (fun _ _ => rfl) fun k => output_reset n.data k
      have hpre := pre_prep K w n₀
      have hpf : ∀ i, (prep K w n₀).1.future = some i → (prep K w n₀).1.state = .running := by
        intro i h
        rw [hpre.state]
        rcases hpre.future with h' | h'
        · rw [h'] at h; cases h
        · exact hrun i (h' ▸ h)
      dsimp only
      split
      · -- an exception
        rename_i hx
        unfold doTick at hx ⊢
        rcases andThen_cases (prep K w n₀) (poll K answer w) with ⟨⟨s, h1⟩, h2⟩ | ⟨h1, h2⟩
        · rw [h2] at hx ⊢
          obtain ⟨p1, p2, p3, _⟩ := poll_frame K answer w (prep K w n₀).1
          refine ⟨fun _ i h => (by rw [p3 hx] at h; cases h), fun _ hq => ?_⟩
          rw [anyUpdated_inputs p2, hpre.data] at hq
          exact poll_raised (prep_now hnow h1).1 hpf hx
        · rw [h2] at hx ⊢
          refine ⟨fun _ => hpf, fun _ hq => ?_⟩
          rw [hpre.data] at hq
          exact prep_raised hq (hnow hq) hx
      · exact broken _ rfl
      · rename_i s hx
        unfold doTick at hx ⊢
        obtain ⟨⟨s', h1⟩, h2⟩ := andThen_ok hx
        rw [h2] at hx ⊢
        obtain ⟨q1, q2⟩ := prep_now hnow h1
        obtain ⟨r1, r2, r3⟩ := poll_now hK q1 q2 hx
        have hgood : Inv K answer { (poll K answer w (prep K w n₀).1).1 with
            state := s,
            data := { (poll K answer w (prep K w n₀).1).1.data with inputs := mapAll Cont.resetUpdated (poll K answer w (prep K w n₀).1).1.data.inputs } } :=
          ⟨fun _ i h => r2 i h, fun _ _ => now_congr r1 _ (fun k _ => value_reset _ k) fun _ => rfl⟩
        split
        · split
          · exact hgood
          · exact broken _ rfl
        · exact hgood
    · exact broken _ rfl
  · exact hi

theorem inv_untick {K : Srv} {answer : Nat → Option Msg} {n : Node} (hi : Inv K answer n) : Inv K answer (untick n).1 := by
  unfold untick
  split
  · rename_i hacc
    refine ⟨fun _ i h => (by cases h), fun _ hq => ?_⟩
    have h := hi.now hacc ((anyUpdated_inputs (d := n.data) (d' := { n.data with outputs := mapAll Cont.resetUpdated n.data.outputs }) rfl _).symm.trans hq)
    exact ⟨fun m hm => (by cases hm), fun c hc => h.client c hc, fun i h => (by cases h), fun h => (by cases h)⟩
  · exact hi

theorem reset_frame (w : World) (n : Node) : (doReset w n).1.data = n.data ∧ (doReset w n).2 ≠ none := by
  unfold doReset doUntick
  split
  · exact ⟨rfl, by simp⟩
  · split
    · exact ⟨rfl, by simp⟩
    · exact ⟨rfl, by simp⟩

theorem reset_ok {w : World} {n : Node} {s : BTState} (h : (doReset w n).2 = some (.ok s)) : s = .idle := by
  unfold doReset doUntick at h
  split at h
  · cases h; rfl
  · split at h
    · cases h; rfl
    · cases h

theorem inv_call {K : Srv} (hK : K.resp.Nodup) {answer : Nat → Option Msg} {n : Node} (hi : Inv K answer n) (op : Op) (w : World) :
    Inv K answer (run K answer op w n).1 := by
  have broken : ∀ m : Node, m.state = .broken → Inv K answer m := fun m hm => ⟨fun h => (by rw [hm] at h; cases h), fun h => (by rw [hm] at h; cases h)⟩
  cases op with
  | tick => exact inv_tick hK hi w
  | untick => exact inv_untick hi
  | setup =>
    simp only [run, setup]
    split
    · cases w.setupOk with
      | false => exact broken _ rfl
      | true => exact ⟨fun _ i h => (by cases h), fun _ hq => absurd hq (flagged (fun _ => rfl) _ K)⟩
    · exact hi
  | reset =>
    simp only [run, reset]
    split
    · generalize hm : ({ n with data := ⟨mapAll Cont.flagUpdated n.data.inputs, mapAll (fun c => c.resetValue.resetUpdated) n.data.outputs⟩ } : Node) = m
      have hd := reset_frame w m
      cases hr : (doReset w m).2 with
      | none => exact absurd hr hd.2
      | some r =>
        cases r with
        | err => simp only [close, hr]; exact broken _ rfl
        | ok s =>
          have := reset_ok hr
          subst this
          simp only [close, hr]
          refine ⟨fun _ i h => ?_, fun _ hq => ?_⟩
          · rw [(reset_clears hr).2] at h; cases h
          · rw [hd.1, ← hm] at hq
            exact absurd hq (flagged (fun _ => rfl) _ K)
    · exact hi
  | shutdown =>
    simp only [run, shutdown]
    split
    · exact hi
    · have hd := reset_frame w n
      cases hr : (doReset w n).2 with
      | none => exact absurd hr hd.2
      | some r =>
        cases r with
        | err => simp only [andThen, close, hr]; exact broken _ rfl
        | ok s =>
          simp only [andThen, close, hr]
          exact ⟨fun h => (by cases h), fun h => (by cases h)⟩

theorem inv_deliver {K : Srv} {answer : Nat → Option Msg} {n : Node} (hi : Inv K answer n) (k : String) (v : Val) (h : Untouched n ∨ Differs n.data k v) :
    Inv K answer { n with data := deliver n.data k v } := by
  refine ⟨hi.running, fun hacc hq => ?_⟩
  rcases h with ⟨h1, h2, h3⟩ | hd
  · refine ⟨fun m hm => ?_, fun c hc => ?_, fun i hf => ?_, fun hs => ?_⟩
    · rw [show _ = n.input from rfl, h3] at hm; cases hm
    · rw [show _ = n.client from rfl, h2] at hc; cases hc
    · have := hi.running hacc i hf
      rw [h1] at this; cases this
    · rw [show _ = n.state from rfl, h1] at hs; cases hs
  · obtain ⟨h1, h2⟩ := deliver_quiet hd hq
    exact now_congr (hi.now hacc h1) _ h2 fun k => by simp only [outputValue, deliver_outputs]

theorem inv {K : Srv} (hK : K.resp.Nodup) {answer : Nat → Option Msg} {n : Node} (h : Runs K answer true n) : Inv K answer n := by
  induction h with
  | new d => exact ⟨fun h => (by cases h), fun h => (by cases h)⟩
  | call op w _ ih => exact inv_call hK ih op w
  | deliver k v _ hd ih => exact inv_deliver ih k v (hd rfl)

theorem anyUpdated_isSome {d d' : NodeData} {ks : List String} {b : Bool} (h : anyUpdated d ks = some b) (hd : d'.inputs = mapAll Cont.resetUpdated d.inputs) :
    anyUpdated d' ks = some false := by
  induction ks generalizing b with
  | nil => rfl
  | cons k ks ih =>
    simp only [anyUpdated] at h ⊢
    rw [hd, lookup_mapAll]
    cases hc : d.inputs.lookup k with
    | none => simp [hc] at h
    | some c =>
      simp only [hc] at h
      cases ha : anyUpdated d ks with
      | none => simp [ha] at h
      | some b' => simp [ih ha, Cont.resetUpdated]

theorem prep_flags {K : Srv} {w : World} {n : Node} {s : BTState} (hs : (prep K w n).2 = some (.ok s)) : ∃ b, anyUpdated n.data (keys K) = some b := by
  unfold prep at hs
  obtain ⟨⟨s1, h1⟩, _⟩ := andThen_ok hs
  obtain ⟨⟨s2, h2⟩, _⟩ := andThen_ok h1
  unfold refresh at h2
  split at h2
  · cases h2
  · rename_i h; exact ⟨_, h⟩
  · rename_i h; exact ⟨_, h⟩

/-- A tick that answers. -/
theorem tick_ok {K : Srv} {answer : Nat → Option Msg} {n : Node} {w : World} {s : BTState} (hs : (tick K answer w n).2 = some (.ok s)) :
    accepts .tick n.state = true ∧ (∃ s', (prep K w (begin n)).2 = some (.ok s')) ∧ (poll K answer w (prep K w (begin n)).1).2 = some (.ok s) ∧
      allowedAfter .tick s = true ∧ (tick K answer w n).1 = { (poll K answer w (prep K w (begin n)).1).1 with
        state := s, data := { (poll K answer w (prep K w (begin n)).1).1.data with
          inputs := mapAll Cont.resetUpdated (poll K answer w (prep K w (begin n)).1).1.data.inputs } } := by
  unfold tick at hs ⊢
  split at hs
  · rename_i hacc
    rw [if_pos hacc]
    split at hs
    · rename_i hin
      rw [if_pos hin]
      dsimp only at hs ⊢
      cases hx : (doTick K answer w (begin n)).2 with
      | none =>
        rw [hx] at hs
        dsimp only at hs
        rw [hx] at hs
        cases hs
      | some r =>
        cases r with
        | err =>
          rw [hx] at hs
          cases hs
        | ok s' =>
          rw [hx] at hs
          dsimp only at hs ⊢
          by_cases ha : allowedAfter .tick s' = true
          · rw [if_pos ha] at hs ⊢
            by_cases hp : w.pushOk = true
            · rw [if_pos hp] at hs ⊢
              cases hs
              unfold doTick at hx ⊢
              obtain ⟨h1, h2⟩ := andThen_ok hx
              rw [h2] at hx ⊢
              exact ⟨hacc, h1, hx, ha, rfl⟩
            · rw [if_neg hp] at hs; cases hs
          · rw [if_neg ha] at hs; cases hs
    · cases hs
  · cases hs

/-- What a tick that answers leaves behind. -/
theorem tick_now {K : Srv} (hK : K.resp.Nodup) {answer : Nat → Option Msg} {n : Node} (h : Runs K answer true n) (w : World) {s : BTState}
    (hs : (tick K answer w n).2 = some (.ok s)) : (tick K answer w n).1.state = s ∧ Now K answer (tick K answer w n).1 := by
  have hi := inv_tick hK (inv hK h) w
  obtain ⟨h1, ⟨s', h2⟩, h3, h4, h5⟩ := tick_ok hs
  have hst : (tick K answer w n).1.state = s := by rw [h5]
  refine ⟨hst, hi.now ?_ ?_⟩
  · rw [hst]
    revert h4
    cases s <;> simp [allowedAfter, accepts]
  · obtain ⟨b, hb⟩ := prep_flags h2
    refine anyUpdated_isSome hb ?_
    rw [h5]
    dsimp only
    rw [(poll_frame K answer w _).2.1, (pre_prep K w (begin n)).data]

/-! ### C132 -/

/-- C132: whenever a Service node answers SUCCEEDED, the call it has made last is the one that its inputs ask for now (service name and request), and its
outputs show the response to this call. Missing: executions in which a value is delivered that equals one that has arrived since the last tick
(`c132_stale`). -/
theorem c132_answer_partial {K : Srv} (hK : K.resp.Nodup) {answer : Nat → Option Msg} {n : Node} (h : Runs K answer true n) (w : World)
    (hs : (tick K answer w n).2 = some (.ok .succeeded)) :
    ∃ i c m r, i + 1 = (tick K answer w n).1.sent.length ∧ (tick K answer w n).1.sent[i]? = some (c, m) ∧ Asks K (tick K answer w n).1.data c m ∧
      answer i = some r ∧ Tells K (tick K answer w n).1.data r := by
  obtain ⟨h1, h2⟩ := tick_now hK h w hs
  obtain ⟨_, _, _, _, h5⟩ := tick_ok hs
  have hf : (tick K answer w n).1.future = none := by
    cases hf : (tick K answer w n).1.future with
    | none => rfl
    | some i =>
      have := (inv_tick hK (inv hK h) w).running (by rw [h1]; rfl) i hf
      rw [h1] at this
      cases this
  have hin : (tick K answer w n).1.input = none := by
    rw [h5]
    exact (poll_frame K answer w _).2.2.2
  obtain ⟨i, r, ⟨k1, c, m, k2, k3⟩, k4, k5⟩ := h2.told h1 hf hin
  exact ⟨i, c, m, r, k1, k2, current_asks k3, k4, k5⟩

/-- C132: while a call is outstanding after a tick, it is the one that the inputs ask for. -/
theorem c132_outstanding_partial {K : Srv} (hK : K.resp.Nodup) {answer : Nat → Option Msg} {n : Node} (h : Runs K answer true n) (w : World) {s : BTState}
    (hs : (tick K answer w n).2 = some (.ok s)) (i : Nat) (hf : (tick K answer w n).1.future = some i) :
    s = .running ∧ i + 1 = (tick K answer w n).1.sent.length ∧ ∃ c m, (tick K answer w n).1.sent[i]? = some (c, m) ∧ Asks K (tick K answer w n).1.data c m := by
  obtain ⟨h1, h2⟩ := tick_now hK h w hs
  obtain ⟨_, _, _, h4, _⟩ := tick_ok hs
  obtain ⟨k1, c, m, k2, k3⟩ := h2.future i hf
  refine ⟨?_, k1, c, m, k2, current_asks k3⟩
  have := (inv_tick hK (inv hK h) w).running (by rw [h1]; revert h4; cases s <;> simp [allowedAfter, accepts]) i hf
  rw [h1] at this
  exact this

/-- The request is determined by the inputs. -/
theorem asks_fill {d : NodeData} : ∀ {fs : List (String × Field)} {m : Msg}, m.map (·.1) = fs.map (·.1) →
    (∀ q ∈ fs.zip m, ∃ v, value d q.1.1 = some v ∧ q.1.2.store v = some q.2.2) → fill d fs = .vals m := by
  intro fs
  induction fs with
  | nil =>
    intro m h _
    cases m with
    | nil => rfl
    | cons => cases h
  | cons p fs ih =>
    intro m h hz
    cases m with
    | nil => cases h
    | cons q m =>
      simp only [List.map_cons, List.cons.injEq] at h
      obtain ⟨v, h1, h2⟩ := hz (p, q) (by simp)
      have := ih h.2 fun x hx => hz x (by simp only [List.zip_cons_cons, List.mem_cons]; exact .inr hx)
      simp only [fill, h1, h2, this]
      rw [← h.1]

theorem asks_current {K : Srv} {d : NodeData} {c : String} {m : Msg} (h : Asks K d c m) : Current K d c m := by
  refine ⟨?_, asks_fill h.2.1 h.2.2⟩
  simp [valueAs, h.1, asStr]

theorem asks_flags {K : Srv} {d : NodeData} {c : String} {m : Msg} (h : Asks K d c m) : ∃ b, anyUpdated d (keys K) = some b := by
  have hl : ∀ k v, value d k = some v → ∃ c, d.inputs.lookup k = some c := by
    intro k v hv
    unfold value at hv
    cases hc : d.inputs.lookup k with
    | none => rw [hc] at hv; cases hv
    | some c => exact ⟨c, rfl⟩
  have hk : ∀ k ∈ keys K, ∃ c, d.inputs.lookup k = some c := by
    intro k hk
    rcases List.mem_cons.1 hk with rfl | hk
    · exact hl _ _ h.1
    · obtain ⟨j, hj, hjk⟩ := List.getElem_of_mem hk
      have hlen : m.length = K.req.length := by simpa using congrArg List.length h.2.1
      have hj' : j < K.req.length := by simpa using hj
      obtain ⟨v, h1, _⟩ := h.2.2 (K.req[j], m[j]'(by omega)) (by
        have := List.getElem_mem (l := K.req.zip m) (n := j) (by simp; omega)
        simpa using this)
      refine hl k v ?_
      rw [← hjk]
      simpa using h1
  revert hk
  generalize keys K = ks
  intro hk
  induction ks with
  | nil => exact ⟨_, rfl⟩
  | cons k ks ih =>
    obtain ⟨c', hc'⟩ := hk k List.mem_cons_self
    obtain ⟨b, hb⟩ := ih fun k hk' => hk k (List.mem_cons_of_mem _ hk')
    exact ⟨c'.updated || b, by simp [anyUpdated, hc', hb]⟩

theorem new_flags {K : Srv} {d : NodeData} (h : New d (keys K)) {b : Bool} (hb : anyUpdated d (keys K) = some b) : b = true := by
  cases b with
  | true => rfl
  | false =>
    obtain ⟨k, hk, c, h1, h2⟩ := h
    obtain ⟨c', h3, h4⟩ := anyUpdated_false hb k hk
    rw [h1] at h3
    cases h3
    rw [h2] at h4
    cases h4

/-- C132: in the first tick, and whenever an input is new, the service is called as the inputs ask, and the node answers RUNNING (if the world plays
along). -/
theorem c132_called_partial {K : Srv} (hK : K.resp.Nodup) {answer : Nat → Option Msg} {n : Node} (h : Runs K answer true n) (w : World)
    (hacc : accepts .tick n.state = true) (hr : ∀ p ∈ n.data.inputs, p.2.value ≠ none) {c : String} {m : Msg} (ha : Asks K n.data c m)
    (hn : n.state = .idle ∨ New n.data (keys K)) (hw : w.destroyOk = true ∧ w.createRaises = false ∧ w.pushOk = true) :
    (tick K answer w n).2 = some (.ok .running) ∧ (tick K answer w n).1.sent = n.sent ++ [(c, m)] := by
  have hi := inv hK h
  obtain ⟨hw1, hw2, hw3⟩ := hw
  have hcur := asks_current ha
  have hvals : n.data.inputs.all (·.2.value.isSome) = true := by
    rw [List.all_eq_true]
    intro p hp
    exact Option.isSome_iff_ne_none.2 (hr p hp)
  have hcur0 : Current K (begin n).data c m := current_congr (d := n.data) (d' := (begin n).data) (fun _ _ => rfl) hcur
  have hfetch : ∀ n' : Node, n'.data = (begin n).data → fetch K n' = ({ n' with input := some m }, some (.ok .idle)) := by
    intro n' h'
    unfold fetch
    rw [h', hcur0.2]
  -- after the first two steps the request is there
  have hprep : ∃ n', andThen (refresh K w (begin n)) (first K) = (n', some (.ok .idle)) ∧ n'.input = some m ∧ n'.data = (begin n).data ∧
      n'.sent = n.sent ∧ (n'.client = none ∨ n'.client = some c) := by
    obtain ⟨b, hb⟩ := asks_flags ha
    have hb0 : anyUpdated (begin n).data (keys K) = some b := (anyUpdated_inputs (d := n.data) (d' := (begin n).data) rfl _).trans hb
    cases b with
    | true =>
      obtain ⟨n1, r1, r2, r3, r4⟩ : ∃ n1, doReset w (begin n) = (n1, some (.ok .idle)) ∧ n1.data = (begin n).data ∧ n1.sent = n.sent ∧ n1.client = none := by
        unfold doReset doUntick
        split
        · rename_i hc; exact ⟨_, rfl, rfl, rfl, hc⟩
        · rw [if_pos hw1]; exact ⟨_, rfl, rfl, rfl, rfl⟩
      refine ⟨{ n1 with input := some m }, ?_, rfl, r2, r3, .inl r4⟩
      simp only [refresh, hb0, andThen, r1, hfetch n1 r2]
      simp [first]
    | false =>
      rcases hn with hidle | hnew
      · have hnow := hi.now hacc hb
        have hf : n.future = none := by
          cases hf : n.future with
          | none => rfl
          | some i =>
            have := hi.running hacc i hf
            rw [hidle] at this
            cases this
        have hcl : n.client = none ∨ n.client = some c := by
          cases hc : n.client with
          | none => exact .inl rfl
          | some c' =>
            have := hnow.client c' hc
            rw [hcur.1] at this
            exact .inr this.symm
        cases hin : n.input with
        | none =>
          refine ⟨{ begin n with input := some m }, ?_, rfl, rfl, rfl, hcl⟩
          simp only [refresh, hb0, andThen, first]
          rw [if_pos ⟨hidle, hf, hin⟩, hfetch _ rfl]
        | some m' =>
          have := hnow.input m' hin
          rw [hcur.2] at this
          cases this
          refine ⟨begin n, ?_, hin, rfl, rfl, hcl⟩
          simp only [refresh, hb0, andThen, first]
          rw [if_neg]
          rintro ⟨_, _, h3⟩
          rw [show (begin n).input = n.input from rfl, hin] at h3
          cases h3
      · exact absurd (new_flags hnew hb) (by simp)
  obtain ⟨n', p1, p2, p3, p4, p5⟩ := hprep
  have hcon : ∃ n'', connect w n' = (n'', some (.ok .idle)) ∧ n''.input = some m ∧ n''.sent = n.sent ∧ n''.client = some c := by
    rcases p5 with p5 | p5
    · refine ⟨{ n' with client := some c }, ?_, p2, p4, rfl⟩
      simp [connect, p5, p3, hcur0.1, hw2]
    · exact ⟨n', by simp [connect, p5], p2, p4, p5⟩
  obtain ⟨n'', q1, q2, q3, q4⟩ := hcon
  have hdo : doTick K answer w (begin n) =
      ({ n'' with future := some n''.sent.length, input := none, sent := n''.sent ++ [(c, m)] }, some (.ok .running)) := by
    have h1 : prep K w (begin n) = (n'', some (.ok .idle)) := by
      unfold prep
      rw [p1]
      exact q1
    unfold doTick
    rw [h1]
    simp only [andThen, poll, q2, q4, Option.getD_some]
  simp only [tick, hacc, if_true, hvals, hdo, hw3, show allowedAfter .tick .running = true from rfl]
  exact ⟨trivial, by rw [q3]⟩

/-- C132: when the response is there and the outputs can hold it, the node answers SUCCEEDED. -/
theorem c132_done {K : Srv} {answer : Nat → Option Msg} (n : Node) (w : World) (hs : n.state = .running) (hr : ∀ p ∈ n.data.inputs, p.2.value ≠ none)
    (hq : ∀ k ∈ keys K, ∃ c, n.data.inputs.lookup k = some c ∧ c.updated = false) {c : String} (hc : n.client = some c) (hin : n.input = none) {i : Nat}
    (hf : n.future = some i) (hw : w.fut = .done ∧ w.pushOk = true) {r : Msg} (ha : answer i = some r) (hK : K.resp.Nodup)
    (ho : ∀ k ∈ K.resp, ∃ v, r.lookup k = some v ∧ Takes n.data k v) : (tick K answer w n).2 = some (.ok .succeeded) := by
  have hvals : n.data.inputs.all (·.2.value.isSome) = true := by
    rw [List.all_eq_true]
    intro p hp
    exact Option.isSome_iff_ne_none.2 (hr p hp)
  have hb0 : anyUpdated (begin n).data (keys K) = some false := anyUpdated_of hq
  obtain ⟨l, h1, h2, h3⟩ := pick_spec r K.resp fun k hk => by obtain ⟨v, h, _⟩ := ho k hk; exact ⟨v, h⟩
  have hput := (putAll_spec l .succeeded (begin n).data (h2 ▸ hK) fun p hp => by
    obtain ⟨v, k1, cc, k2, k3, k4⟩ := ho p.1 (h2 ▸ List.mem_map_of_mem hp)
    rw [h3 p hp] at k1
    cases k1
    refine ⟨cc.resetUpdated, ?_, k3, k4⟩
    simp [begin, lookup_mapAll, k2]).1
  have hprep : prep K w (begin n) = (begin n, some (.ok .idle)) := by
    have hfst : first K (begin n) = (begin n, some (.ok .idle)) := by
      unfold first
      rw [if_neg]
      rintro ⟨h, _⟩
      rw [show (begin n).state = n.state from rfl, hs] at h
      cases h
    simp only [prep, refresh, hb0, andThen, hfst, connect, show (begin n).client = n.client from rfl, hc]
  have hdo : (doTick K answer w (begin n)).2 = some (.ok .succeeded) := by
    simp only [doTick, hprep, andThen, poll, show (begin n).input = n.input from rfl, hin, show (begin n).future = n.future from rfl, hf, hw.1, ha,
      setOutputs, h1, hput]
  simp only [tick, hs, show accepts .tick .running = true from rfl, if_true, hvals, hdo, hw.2, show allowedAfter .tick .succeeded = true from rfl]

/-! ### Examples -/

/-- As `example_interfaces/srv/AddTwoInts`. -/
def add : Srv := ⟨[("a", .base (.int true 64)), ("b", .base (.int true 64))], ["sum"]⟩

/-- The inputs and outputs of a Service node for it. -/
def addData : NodeData where
  inputs := [("service_type", { ty := .rosType .service 1, allowDynamic := false, value := some (.cls "example_interfaces/srv/AddTwoInts") }),
    ("service_name", { ty := .rosName .service 1, isStatic := false }), ("a", { ty := (Field.base (.int true 64)).ty, isStatic := false }),
    ("b", { ty := (Field.base (.int true 64)).ty, isStatic := false })]
  outputs := [("sum", { ty := (Field.base (.int true 64)).ty, isStatic := false })]

/-- The server: 1 + 2 in the first call, 5 + 2 in the second. -/
def sums (i : Nat) : Option Msg := some [("sum", .int (if i = 0 then 3 else 7))]

/-- What happens. -/
inductive Ev
  | call (op : Op) (w : World)
  | deliver (k : String) (v : Val)

/-- One event. -/
def go (n : Node) : Ev → Node
  | .call op w => (run add sums op w n).1
  | .deliver k v => { n with data := deliver n.data k v }

/-- The node is set up, gets its inputs and calls the service. -/
def asking : Node := [.call .setup {}, .deliver "service_name" (.str "/add"), .deliver "a" (.int 1), .deliver "b" (.int 2), .call .tick {}].foldl go (new addData)

/-- The response is there. -/
def summed : Node := go asking (.call .tick { fut := .done })

theorem differs_of {n : Node} {k : String} {v : Val} (h : ((n.data.inputs.lookup k).map fun c => c.updated) ≠ some true) : Differs n.data k v := by
  intro c hc hu
  rw [hc] at h
  simp [hu] at h

theorem asking_runs (calm : Bool) : Runs add sums calm asking := by
  refine .call .tick _ (.deliver "b" _ (.deliver "a" _ (.deliver "service_name" _ (.call .setup _ (.new addData)) ?_) ?_) ?_) <;>
    exact fun _ => .inl ⟨by decide +kernel, by decide +kernel, by decide +kernel⟩

theorem summed_runs (calm : Bool) : Runs add sums calm summed := .call .tick _ (asking_runs calm)

example : asking.state = .running ∧ asking.sent = [("/add", [("a", .int 1), ("b", .int 2)])] := ⟨by decide +kernel, rfl⟩

example : (tick add sums { fut := .done } asking).2 = some (.ok .succeeded) ∧ outputValue summed.data "sum" = some (.int 3) :=
  ⟨by decide +kernel, rfl⟩

example : ∃ i c m r, i + 1 = summed.sent.length ∧ summed.sent[i]? = some (c, m) ∧ Asks add summed.data c m ∧ sums i = some r ∧ Tells add summed.data r :=
  c132_answer_partial (by decide) (asking_runs true) { fut := .done } (by decide +kernel)

example : ∃ c m, (tick add sums {} asking).1.sent[0]? = some (c, m) ∧ Asks add (tick add sums {} asking).1.data c m :=
  (c132_outstanding_partial (by decide) (asking_runs true) {} (s := .running) (by decide +kernel) 0 (by decide +kernel)).2.2

/-- A new input: the service is called again. -/
def changed : Node := go summed (.deliver "a" (.int 5))

theorem changed_runs : Runs add sums true changed := .deliver "a" _ (summed_runs true) fun _ => .inr (differs_of (by decide +kernel))

example : (tick add sums {} changed).2 = some (.ok .running) ∧
    (tick add sums {} changed).1.sent = changed.sent ++ [("/add", [("a", .int 5), ("b", .int 2)])] := by
  refine c132_called_partial (by decide) changed_runs {} (by decide +kernel) (by decide +kernel) ⟨rfl, by decide, ?_⟩ (.inr ?_)
    ⟨rfl, rfl, rfl⟩
  · intro q hq
    simp only [add, List.zip_cons_cons, List.zip_nil_left, List.mem_cons, List.not_mem_nil, or_false] at hq
    rcases hq with rfl | rfl
    · exact ⟨.int 5, rfl, rfl⟩
    · exact ⟨.int 2, rfl, rfl⟩
  · refine ⟨"a", by decide, ?_⟩
    cases hc : changed.data.inputs.lookup "a" with
    | none => exact absurd hc (by decide +kernel)
    | some c =>
      refine ⟨c, rfl, ?_⟩
      have : (changed.data.inputs.lookup "a").map (·.updated) = some true := by decide +kernel
      rw [hc] at this
      simpa using this

example : (tick add sums { fut := .done } asking).2 = some (.ok .succeeded) := by
  refine c132_done (i := 0) (c := "/add") (r := [("sum", .int 3)]) asking _ (by decide +kernel) (by decide +kernel) ?_ (by decide +kernel) (by decide +kernel)
    (by decide +kernel) ⟨rfl, rfl⟩ rfl (by decide) ?_
  · intro k hk
    have hall : ∀ k ∈ keys add, (asking.data.inputs.lookup k).map (·.updated) = some false := by decide +kernel
    have := hall k hk
    cases hc : asking.data.inputs.lookup k with
    | none => rw [hc] at this; cases this
    | some c => rw [hc] at this; exact ⟨c, rfl, by simpa using this⟩
  · intro k hk
    simp only [add, List.mem_cons, List.not_mem_nil, or_false] at hk
    subst hk
    refine ⟨.int 3, rfl, _, rfl, rfl, ?_⟩
    exact .int (.int 3) (by decide) (by decide)

/-- The same value is delivered twice before the next tick, e.g. by a source that is ticked twice. -/
def again : Node := go (go summed (.deliver "a" (.int 5))) (.deliver "a" (.int 5))

/-- C132, not so: the node then answers SUCCEEDED at once, with the response to the old request, and never calls the service with the new value. -/
theorem c132_stale : Runs add sums false again ∧ value again.data "a" = some (.int 5) ∧ (tick add sums {} again).2 = some (.ok .succeeded) ∧
    (tick add sums {} again).1.sent = [("/add", [("a", .int 1), ("b", .int 2)])] ∧ outputValue (tick add sums {} again).1.data "sum" = some (.int 3) :=
  ⟨.deliver _ _ (.deliver _ _ (summed_runs false) fun h => (by cases h)) fun h => (by cases h), rfl, (by decide +kernel), rfl, rfl⟩

end Verif.Ros.Rpc
