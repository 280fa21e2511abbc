import Verif.Data.Flow

/-! C51: wired data is delivered. -/

set_option autoImplicit false

namespace Verif.Data

/-! ### Notions -/

/-- `w` is the value `v` as a container of type `t` stores it, or equal to that in Python. -/
def Same (t : Ty) (v w : Val) : Prop := w = clean t v ∨ pyEq w (clean t v) = true

/-- The input of a connection holds the value `v`. -/
def Holds (f : Flow) (x : Conn) (v : Val) : Prop := ∃ t w, f.input x.target x.targetKey = some t ∧ t.value = some w ∧ Same t.ty v w

/-- The input that a connection leads to. -/
def Conn.place (x : Conn) : Nat × String := (x.target, x.targetKey)

/-- The connections of a node. -/
def Flow.connsOf (f : Flow) (s : Nat) : List Conn := (f.conns.lookup s).getD []

/-- A value is to be sent along the connection: its output has been written in this tick. -/
def Sends (f : Flow) (s : Nat) (x : Conn) (v : Val) : Prop := ∃ c, f.output s x.sourceKey = some c ∧ c.updated = true ∧ c.value = some v

/-- No input has two sources. -/
def OneSource (cs : List (Nat × List Conn)) : Prop :=
  (∀ s xs, cs.lookup s = some xs → (xs.map Conn.place).Nodup) ∧
  ∀ s s' xs xs' x x', cs.lookup s = some xs → cs.lookup s' = some xs' → x ∈ xs → x' ∈ xs' → x.place = x'.place → s = s'

/-- No incoming data for inputs that are wired. -/
def IncomingApart (f : Flow) : Prop := ∀ s xs x, f.conns.lookup s = some xs → x ∈ xs → f.incoming.lookup x.place = none

/-! ### Setting a value -/

/-- After a value has been accepted the container holds it, and is marked updated iff it held another value before. -/
theorem set_ok {c : Cont} {v : Val} (h : (c.set v).2 = .ok) :
    ∃ w, (c.set v).1.value = some w ∧ Same c.ty v w ∧
      (∀ old, c.value = some old → pyEq old (clean c.ty v) = true → (c.set v).1.updated = false ∧ w = old) ∧
      ((∀ old, c.value = some old → pyEq old (clean c.ty v) = false) → (c.set v).1.updated = true ∧ w = clean c.ty v) := by
  unfold Cont.set at h ⊢
  cases hc : check c.ty v with
  | ok =>
    rw [hc] at h
    dsimp only at h ⊢
    unfold Cont.assign at h ⊢
    split at h
    · cases h
    · rename_i hs
      rw [if_neg hs]
      cases hv : c.value with
      | none => exact ⟨clean c.ty v, by simp, .inl rfl, by simp, by simp⟩
      | some old =>
        cases hp : pyEq old (clean c.ty v) with
        | true => exact ⟨old, by simp [hp], .inr hp, by simp [hp], by simp [hp]⟩
        | false => exact ⟨clean c.ty v, by simp [hp], .inl rfl, by simp [hp], by simp [hp]⟩
  | err => rw [hc] at h; cases h
  | raise => rw [hc] at h; cases h

/-! ### Pushing along the connections of a node -/

/-- Nothing but the inputs the connections lead to is changed. -/
theorem pushConns_frame (s : Nat) : ∀ (xs : List Conn) (f f' : Flow) (a : Ans), pushConns s xs f = (f', a) →
    f'.conns = f.conns ∧ f'.incoming = f.incoming ∧ f'.outgoing = f.outgoing ∧ (∀ n k, f'.output n k = f.output n k) ∧
    ∀ n k, (n, k) ∉ xs.map Conn.place → f'.input n k = f.input n k := by
  intro xs
  induction xs with
  | nil =>
    intro f f' a h
    cases h
    exact ⟨rfl, rfl, rfl, fun _ _ => rfl, fun _ _ _ => rfl⟩
  | cons x xs ih =>
    intro f f' a h
    have skip : pushConns s xs f = (f', a) → f'.conns = f.conns ∧ f'.incoming = f.incoming ∧ f'.outgoing = f.outgoing ∧
        (∀ n k, f'.output n k = f.output n k) ∧ ∀ n k, (n, k) ∉ (x :: xs).map Conn.place → f'.input n k = f.input n k := by
      intro h
      obtain ⟨h1, h2, h3, h4, h5⟩ := ih f f' a h
      exact ⟨h1, h2, h3, h4, fun n k hn => h5 n k (fun hm => hn (by simp only [List.map_cons, List.mem_cons]; exact .inr hm))⟩
    simp only [pushConns] at h
    split at h
    · cases h; exact ⟨rfl, rfl, rfl, fun _ _ => rfl, fun _ _ _ => rfl⟩
    · split at h
      · split at h
        · exact skip h
        · rename_i v _
          cases hd : f.deliver x.target x.targetKey v with
          | mk g b =>
            obtain ⟨d1, d2, d3, d4, d5, _⟩ := deliver_cases hd
            have other : ∀ n k, (n, k) ∉ (x :: xs).map Conn.place → g.input n k = f.input n k := by
              intro n k hn
              refine d5 n k (fun e => hn ?_)
              simp [Conn.place, e.1, e.2]
            rw [hd] at h
            cases b with
            | ok =>
              dsimp only at h
              obtain ⟨h1, h2, h3, h4, h5⟩ := ih g f' a h
              refine ⟨h1.trans d1, h2.trans d2, h3.trans d3, fun n k => (h4 n k).trans (d4 n k), fun n k hn => ?_⟩
              exact (h5 n k (fun hm => hn (by simp only [List.map_cons, List.mem_cons]; exact .inr hm))).trans (other n k hn)
            | err => cases h; exact ⟨d1, d2, d3, d4, other⟩
            | raise => cases h; exact ⟨d1, d2, d3, d4, other⟩
      · exact skip h

/-- What became of the container at the end of a connection: if nothing was sent it is as it was, otherwise the value was set. -/
theorem pushConns_hit (s : Nat) : ∀ (xs : List Conn) (f f' : Flow), pushConns s xs f = (f', .ok) → (xs.map Conn.place).Nodup →
    ∀ x ∈ xs, (∀ v, Sends f s x v → ∃ c, f.input x.target x.targetKey = some c ∧ (c.set v).2 = .ok ∧
      f'.input x.target x.targetKey = some (c.set v).1) ∧
      ((∀ v, ¬ Sends f s x v) → f'.input x.target x.targetKey = f.input x.target x.targetKey) := by
  intro xs
  induction xs with
  | nil => intro f f' _ _ x hx; cases hx
  | cons y xs ih =>
    intro f f' h hn x hx
    simp only [List.map_cons, List.nodup_cons] at hn
    -- nothing is sent along the first connection
    have skip : pushConns s xs f = (f', .ok) → (∀ v, ¬ Sends f s y v) →
        (∀ v, Sends f s x v → ∃ c, f.input x.target x.targetKey = some c ∧ (c.set v).2 = .ok ∧
          f'.input x.target x.targetKey = some (c.set v).1) ∧
        ((∀ v, ¬ Sends f s x v) → f'.input x.target x.targetKey = f.input x.target x.targetKey) := by
      intro h' hns
      rcases List.mem_cons.mp hx with rfl | hx
      · refine ⟨fun v hv => absurd hv (hns v), fun _ => ?_⟩
        exact (pushConns_frame s xs f f' .ok h').2.2.2.2 _ _ hn.1
      · exact ih f f' h' hn.2 x hx
    simp only [pushConns] at h
    split at h
    · cases h
    · rename_i c hc
      split at h
      · rename_i hu
        split at h
        · rename_i hv
          refine skip h (fun v ⟨c', h1, _, h3⟩ => ?_)
          rw [hc] at h1; cases h1; rw [hv] at h3; cases h3
        · rename_i v hv
          cases hd : f.deliver y.target y.targetKey v with
          | mk g b =>
            obtain ⟨d1, d2, d3, d4, d5, d6⟩ := deliver_cases hd
            rw [hd] at h
            cases b with
            | err => cases h
            | raise => cases h
            | ok =>
              dsimp only at h
              have sends : ∀ z w, Sends g s z w ↔ Sends f s z w := by
                intro z w; unfold Sends; rw [d4]
              rcases List.mem_cons.mp hx with rfl | hx
              · refine ⟨fun w ⟨c', h1, _, h3⟩ => ?_, fun hns => absurd ⟨c, hc, hu, hv⟩ (hns v)⟩
                rw [hc] at h1; cases h1
                rw [hv] at h3; cases h3
                rcases d6 with ⟨_, e, _⟩ | ⟨t, e1, e2, e3⟩
                · cases e
                · exact ⟨t, e1, e2.symm, by rw [(pushConns_frame s xs g f' .ok h).2.2.2.2 _ _ hn.1, e3]⟩
              · have hne : ¬ (x.target = y.target ∧ x.targetKey = y.targetKey) := by
                  intro e
                  refine hn.1 (List.mem_map.mpr ⟨x, hx, ?_⟩)
                  simp [Conn.place, e.1, e.2]
                have hin := d5 _ _ hne
                obtain ⟨i1, i2⟩ := ih g f' h hn.2 x hx
                refine ⟨fun w hw => ?_, fun hns => ?_⟩
                · obtain ⟨t, e1, e2, e3⟩ := i1 w ((sends x w).mpr hw)
                  exact ⟨t, by rw [← hin]; exact e1, e2, e3⟩
                · rw [i2 (fun w hw => hns w ((sends x w).mp hw)), hin]
      · rename_i hu
        refine skip h (fun v ⟨c', h1, h2, _⟩ => ?_)
        rw [hc] at h1; cases h1; exact hu h2

theorem pushOutgoing_frame (s : Nat) : ∀ (ds : List (String × Cont)) (f f' : Flow) (a : Ans), pushOutgoing s ds f = (f', a) →
    f'.conns = f.conns ∧ f'.incoming = f.incoming ∧ (∀ n k, f'.output n k = f.output n k) ∧ ∀ n k, f'.input n k = f.input n k := by
  intro ds
  induction ds with
  | nil => intro f f' a h; cases h; exact ⟨rfl, rfl, fun _ _ => rfl, fun _ _ => rfl⟩
  | cons p ds ih =>
    intro f f' a h
    obtain ⟨k, c⟩ := p
    simp only [pushOutgoing] at h
    split at h
    · split at h
      · split at h
        · obtain ⟨h1, h2, h3, h4⟩ := ih _ f' a h
          exact ⟨h1, h2, h3, h4⟩
        · cases h; exact ⟨rfl, rfl, fun _ _ => rfl, fun _ _ => rfl⟩
      · exact ih f f' a h
    · exact ih f f' a h

/-- `push_outputs` is a push along the connections as far as inputs and outputs are concerned. -/
theorem pushOutputs_cases {f f' : Flow} {s : Nat} {a : Ans} (h : f.pushOutputs s = (f', a)) :
    (f' = f ∧ a ≠ .ok) ∨ ∃ g b, f.conns.lookup s = some (f.connsOf s) ∧ pushConns s (f.connsOf s) f = (g, b) ∧ (a = .ok → b = .ok) ∧
      f'.conns = g.conns ∧ f'.incoming = g.incoming ∧ (∀ n k, f'.output n k = g.output n k) ∧ ∀ n k, f'.input n k = g.input n k := by
  unfold Flow.pushOutputs at h
  split at h
  · rename_i d cs hd hcs
    have e : f.connsOf s = cs := by simp [Flow.connsOf, hcs]
    rw [e]
    cases hp : pushConns s cs f with
    | mk g b =>
      rw [hp] at h
      cases b with
      | ok =>
        obtain ⟨h1, h2, h3, h4⟩ := pushOutgoing_frame _ _ _ _ _ h
        exact .inr ⟨g, .ok, hcs, rfl, fun _ => rfl, h1, h2, h3, h4⟩
      | err => cases h; exact .inr ⟨_, .err, hcs, rfl, by simp, rfl, rfl, fun _ _ => rfl, fun _ _ => rfl⟩
      | raise => cases h; exact .inr ⟨_, .raise, hcs, rfl, by simp, rfl, rfl, fun _ _ => rfl, fun _ _ => rfl⟩
  · cases h; exact .inl ⟨rfl, by simp⟩

/-- C51, one tick: when a tick has ended with success, every input that an output written in this tick is wired to holds the value of the
output; it is marked updated if it held another value before; every other input is as it was before, except that those of the node itself are no
longer marked; no output has changed. -/
theorem c51_tick_partial (f f' : Flow) (s : Nat) (h : f.finish s = (f', .ok)) (hone : ((f.connsOf s).map Conn.place).Nodup) :
    (∀ x ∈ f.connsOf s, ∀ v, Sends f s x v → Holds f' x v ∧ ∃ t t', f.input x.target x.targetKey = some t ∧ f'.input x.target x.targetKey = some t' ∧
      ((∀ old, t.value = some old → pyEq old (clean t.ty v) = false) → t'.updated = true) ∧
      (∀ old, t.value = some old → pyEq old (clean t.ty v) = true → t' = { t with updated := false })) ∧
    (∀ n k, (∀ x ∈ f.connsOf s, x.place = (n, k) → ∀ v, ¬ Sends f s x v) →
      f'.input n k = if n = s then (f.input n k).map Cont.resetUpdated else f.input n k) ∧
    ∀ n k, f'.output n k = f.output n k := by
  unfold Flow.finish at h
  have hout : ∀ n k, (f.allInputs s Cont.resetUpdated).output n k = f.output n k := fun n k => output_allInputs ..
  have hin : ∀ n k, (f.allInputs s Cont.resetUpdated).input n k = if n = s then (f.input n k).map Cont.resetUpdated else f.input n k :=
    fun n k => input_allInputs ..
  have hcon : (f.allInputs s Cont.resetUpdated).connsOf s = f.connsOf s := rfl
  have hsends : ∀ x v, Sends (f.allInputs s Cont.resetUpdated) s x v ↔ Sends f s x v := by
    intro x v; unfold Sends; rw [hout]
  generalize f.allInputs s Cont.resetUpdated = f1 at h hout hin hcon hsends
  rcases pushOutputs_cases h with ⟨_, e⟩ | ⟨g, b, _, hp, hb, _, _, ho, hi⟩
  · exact absurd rfl e
  · have hb := hb rfl
    subst hb
    rw [hcon] at hp
    have hit := pushConns_hit s _ _ _ hp hone
    obtain ⟨_, _, _, frOut, frIn⟩ := pushConns_frame s _ _ _ _ hp
    refine ⟨fun x hx v hv => ?_, fun n k hn => ?_, fun n k => ?_⟩
    · obtain ⟨t1, e1, e2, e3⟩ := (hit x hx).1 v ((hsends x v).mpr hv)
      obtain ⟨w, w1, w2, w3, w4⟩ := set_ok e2
      rw [hin] at e1
      have ht : ∃ t, f.input x.target x.targetKey = some t ∧ t1.ty = t.ty ∧ t1.value = t.value ∧
          ({ t1 with updated := false } : Cont) = { t with updated := false } := by
        split at e1
        · cases hft : f.input x.target x.targetKey with
          | none => rw [hft] at e1; cases e1
          | some t => rw [hft] at e1; cases e1; exact ⟨t, rfl, rfl, rfl, rfl⟩
        · exact ⟨t1, e1, rfl, rfl, rfl⟩
      obtain ⟨t, ht1, ht2, ht3, ht4⟩ := ht
      refine ⟨⟨(t1.set v).1, w, by rw [hi, e3], w1, ?_⟩, t, (t1.set v).1, ht1, by rw [hi, e3], fun hold => ?_, fun old hold hp => ?_⟩
      · rw [(set_ty t1 v).1]; exact w2
      · exact (w4 (fun old ho => by rw [ht2]; exact hold old (ht3 ▸ ho))).1
      · have hv1 : t1.value = some old := ht3.trans hold
        have hp1 : pyEq old (clean t1.ty v) = true := by rw [ht2]; exact hp
        have hs := w3 old hv1 hp1
        rw [← ht4]
        have : (t1.set v).1.value = t1.value := by rw [w1, hs.2, hv1]
        have ⟨k1, k2, k3, k4⟩ := set_ty t1 v
        have hu := hs.1
        generalize (t1.set v).1 = r at this k1 k2 k3 k4 hu
        obtain ⟨_, _, _, _, _, _⟩ := r
        simp_all
    · rw [hi]
      by_cases hm : (n, k) ∈ (f.connsOf s).map Conn.place
      · obtain ⟨x, hx, hxp⟩ := List.mem_map.mp hm
        have := (hit x hx).2 (fun v hv => hn x hx hxp v ((hsends x v).mp hv))
        have e : x.target = n ∧ x.targetKey = k := by simpa [Conn.place] using hxp
        rw [e.1, e.2] at this
        rw [this, hin]
      · rw [frIn n k hm, hin]
    · rw [ho, frOut, hout]

end Verif.Data
