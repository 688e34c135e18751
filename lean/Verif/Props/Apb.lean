import Verif.Proof.ApbSys

/-!
# C39, C40 (and C33 - C35 for APB): the APB master on the bus, and connected to an APB slave
-/

namespace Verif.Apb
open Master

/-! ## C39: the protocol -/

theorem exec_append (slverr : Bool) (evs l : List MEv) :
    Master.exec slverr (evs ++ l) = l.foldl (Master.step slverr) (Master.exec slverr evs) := by
  simp [Master.exec, List.foldl_append]

theorem quiet_bus {slverr : Bool} {s : Master} {e : MEv} (h : e.quiet = true) : (s.step slverr e).bus = s.bus := by
  cases e with
  | call op => rfl
  | init op => rfl
  | runInit i => simp only [Master.step]; split <;> rfl
  | resume => simp only [Master.step, Master.resume]; split <;> rfl
  | edge => simp [MEv.quiet] at h
  | reset v =>
    cases v with
    | true => simp [MEv.quiet] at h
    | false => simp only [Master.step, Master.reset]; simp; split <;> rfl

theorem quiets_bus {slverr : Bool} {l : List MEv} (h : ∀ e ∈ l, e.quiet = true) (s : Master) :
    (l.foldl (Master.step slverr) s).bus = s.bus := by
  induction l generalizing s with
  | nil => rfl
  | cons e l ih =>
    simp only [List.foldl_cons]
    rw [ih (fun e he => h e (List.mem_cons_of_mem _ he)), quiet_bus (h e (List.mem_cons_self ..))]

theorem low_bus {slverr : Bool} {s : Master} (hb : s.bus.psel = false ∧ s.bus.penable = false) {e : MEv}
    (h : ∀ p r d er, e ≠ .edge p r d er) : (s.step slverr e).bus.psel = false ∧ (s.step slverr e).bus.penable = false := by
  by_cases hq : e.quiet = true
  · rw [quiet_bus hq]; exact hb
  · cases e with
    | edge p r d er => exact absurd rfl (h p r d er)
    | reset v =>
      cases v with
      | true => exact ⟨rfl, rfl⟩
      | false => simp [MEv.quiet] at hq
    | _ => simp [MEv.quiet] at hq

theorem lows_bus {slverr : Bool} {l : List MEv} (h : ∀ e ∈ l, ∀ p r d er, e ≠ .edge p r d er) {s : Master}
    (hb : s.bus.psel = false ∧ s.bus.penable = false) :
    (l.foldl (Master.step slverr) s).bus.psel = false ∧ (l.foldl (Master.step slverr) s).bus.penable = false := by
  induction l generalizing s with
  | nil => exact hb
  | cons e l ih =>
    exact ih (fun e he => h e (List.mem_cons_of_mem _ he)) (low_bus hb (h e (List.mem_cons_self ..)))

/-- **C39.** Between any clock edge and the next one (with any calls in between, but no reset), whatever the slave's signals
and the pauses are, the master's signals obey the APB protocol. -/
theorem C39_protocol (slverr : Bool) (evs : List MEv) (paused pready : Bool) (prdata : Nat) (pslverr : Bool)
    (mid : List MEv) (hmid : ∀ e ∈ mid, e.quiet = true) :
    Protocol (Master.exec slverr evs).bus pready
      (Master.exec slverr (evs ++ .edge paused pready prdata pslverr :: mid)).bus := by
  rw [exec_append, List.foldl_cons, quiets_bus hmid]
  simp only [Master.step]
  have hI := exec_inv slverr evs
  generalize Master.exec slverr evs = s at *
  have hA := edge_access s slverr paused pready prdata pslverr
  have hI' := edge_inv hI slverr paused pready prdata pslverr
  have hpc : (∃ op x xs rs, s.pc = .setup op x xs rs) ∨ (∃ op x xs rs, s.pc = .access op x xs rs) ∨
      (∀ op x xs rs, s.pc ≠ .setup op x xs rs ∧ s.pc ≠ .access op x xs rs) := by
    cases s.pc <;> simp
  have hen : (s.edge slverr paused pready prdata pslverr).pc.isAccess = false →
      (s.edge slverr paused pready prdata pslverr).bus.penable = false := by
    intro h
    by_cases hs : ∃ op x xs rs, (s.edge slverr paused pready prdata pslverr).pc = .setup op x xs rs
    · obtain ⟨op, x, xs, rs, hs⟩ := hs
      exact (hI'.ctl.setup _ _ _ _ hs).1
    · refine (hI'.ctl.low ?_).2
      intro op x xs rs
      refine ⟨fun hh => hs ⟨_, _, _, _, hh⟩, fun hh => ?_⟩
      rw [hh] at h; simp [MPc.isAccess] at h
  rcases hpc with ⟨op, x, xs, rs, hpc⟩ | ⟨op, x, xs, rs, hpc⟩ | hpc
  · obtain ⟨h1, h2⟩ := hI.ctl.setup _ _ _ _ hpc
    have h3 : s.bus.psel = true := by rw [← h2]; exact drive_sel _ _
    constructor
    · simp [h1]
    · simp [h1, h3]
    · intro _ _; simp [Master.edge, hpc]
    · simp [h1]
    · simp [h1]
  · obtain ⟨h1, h2⟩ := hI.ctl.access _ _ _ _ hpc
    have h3 : s.bus.psel = true := by rw [← h2]; exact drive_sel _ _
    have h4 : pready = true → (s.edge slverr paused pready prdata pslverr).bus.penable = false := by
      intro hr
      apply hen
      cases hx : (s.edge slverr paused pready prdata pslverr).pc.isAccess with
      | false => rfl
      | true =>
        rcases hA.1 hx with ⟨_, _, _, _, h'⟩ | ⟨_, h'⟩
        · simp [hpc] at h'
        · simp [hr] at h'
    constructor
    · simp [h3]
    · intro he
      refine ⟨h3, .inr ?_⟩
      cases pready with
      | false => rfl
      | true => rw [h4 rfl] at he; cases he
    · simp [h1]
    · intro _ _ hr; simp [Master.edge, hpc, hr]
    · intro _ _ hr; exact h4 hr
  · obtain ⟨h1, h2⟩ := hI.ctl.low hpc
    have h4 : (s.edge slverr paused pready prdata pslverr).bus.penable = false := by
      apply hen
      cases hx : (s.edge slverr paused pready prdata pslverr).pc.isAccess with
      | false => rfl
      | true =>
        rcases hA.1 hx with ⟨_, _, _, _, h'⟩ | ⟨h', _⟩
        · exact absurd h' (hpc _ _ _ _).1
        · exfalso
          cases hp : s.pc <;> simp [MPc.isAccess, hp] at h'
          exact (hpc _ _ _ _).2 hp
    constructor <;> simp_all

/-- **C39, reset.** From a reset to the next clock edge, and from construction to the first clock edge, nothing is
selected. -/
theorem C39_reset (slverr : Bool) (evs mid : List MEv) (hmid : ∀ e ∈ mid, ∀ p r d er, e ≠ .edge p r d er) :
    ((Master.exec slverr mid).bus.psel = false ∧ (Master.exec slverr mid).bus.penable = false) ∧
    (Master.exec slverr (evs ++ .reset true :: mid)).bus.psel = false ∧
    (Master.exec slverr (evs ++ .reset true :: mid)).bus.penable = false := by
  refine ⟨lows_bus hmid ⟨rfl, rfl⟩, ?_⟩
  rw [exec_append, List.foldl_cons]
  exact lows_bus hmid ⟨rfl, rfl⟩

theorem answered_eq (slverr : Bool) (evs : List MEv) :
    answered slverr evs = (Master.exec slverr evs).consumed.length := by
  have H : ∀ (l : List MEv) (s : Master) (n : Nat), s.Inv → n = s.consumed.length →
      (l.foldl (fun (p : Master × Nat) e =>
        (p.1.step slverr e,
         match e with
         | .edge _ pready _ _ => if p.1.bus.psel && p.1.bus.penable && pready then p.2 + 1 else p.2
         | .reset true => 0
         | _ => p.2)) (s, n)).2 = (l.foldl (Master.step slverr) s).consumed.length := by
    intro l
    induction l with
    | nil => intro s n _ h; exact h
    | cons e l ih =>
      intro s n hI hn
      simp only [List.foldl_cons]
      apply ih _ _ (step_inv hI slverr e)
      cases e with
      | call op => exact hn
      | init op => exact hn
      | runInit i => simp only [Master.step]; split <;> exact hn
      | resume =>
        simp only [Master.step, Master.resume]
        split
        · rename_i hpc _
          rw [hn]; simp [consumed, hpc, MPc.got']
        · exact hn
      | edge p r d er =>
        simp only [Master.step]
        obtain ⟨_, h2, _⟩ := edge_facts s slverr p r d er
        rw [h2, List.length_append, ← hn, sample]
        have : (s.bus.psel && s.bus.penable) = s.pc.isAccess := by
          have hpc : (∃ op x xs rs, s.pc = .setup op x xs rs) ∨ (∃ op x xs rs, s.pc = .access op x xs rs) ∨
              (∀ op x xs rs, s.pc ≠ .setup op x xs rs ∧ s.pc ≠ .access op x xs rs) := by
            cases s.pc <;> simp
          rcases hpc with ⟨op, x, xs, rs, hpc⟩ | ⟨op, x, xs, rs, hpc⟩ | hpc
          · simp [(hI.ctl.setup _ _ _ _ hpc).1, hpc, MPc.isAccess]
          · obtain ⟨h1, h2⟩ := hI.ctl.access _ _ _ _ hpc
            have h3 : s.bus.psel = true := by rw [← h2]; exact drive_sel _ _
            simp [h1, h3, hpc, MPc.isAccess]
          · rw [(hI.ctl.low hpc).1]
            cases hp : s.pc <;> simp [MPc.isAccess]
            exact absurd hp (hpc _ _ _ _).2
        simp only [this]
        split <;> simp_all
      | reset v =>
        cases v with
        | true => simp [Master.step, Master.reset, consumed, MPc.got']
        | false =>
          simp only [Master.step, Master.reset, Bool.false_eq_true, if_false]
          split
          · rename_i hpc
            rw [hn]; simp [consumed, hpc, MPc.got']
          · exact hn
  exact H evs {} 0 inv_init rfl

/-- **C39, the transfers.** Whenever the master selects the slave, the signals carry the transfer whose turn it is: number
`n` of the transfers of the operations called since the last reset, where `n` accesses have been answered since then; and
write data and strobes are zero for a read. -/
theorem C39_transfers (slverr : Bool) (evs : List MEv) (h : (Master.exec slverr evs).bus.psel = true) :
    ((Master.exec slverr evs).epoch.flatMap (·.xs))[answered slverr evs]? = some (Master.exec slverr evs).bus.request ∧
    ((Master.exec slverr evs).bus.pwrite = false →
      (Master.exec slverr evs).bus.pwdata = 0 ∧ (Master.exec slverr evs).bus.pstrb = 0) := by
  rw [answered_eq]
  have hI := exec_inv slverr evs
  generalize Master.exec slverr evs = s at *
  have key : ∃ x t, s.todo = x :: t ∧ s.bus.drive x = s.bus := by
    by_cases hs : ∃ op x xs rs, s.pc = .setup op x xs rs
    · obtain ⟨op, x, xs, rs, hs⟩ := hs
      exact ⟨x, xs ++ s.queue.flatMap (·.xs), by simp [todo, hs, MPc.rem], (hI.ctl.setup _ _ _ _ hs).2⟩
    · by_cases ha : ∃ op x xs rs, s.pc = .access op x xs rs
      · obtain ⟨op, x, xs, rs, hs⟩ := ha
        exact ⟨x, xs ++ s.queue.flatMap (·.xs), by simp [todo, hs, MPc.rem], (hI.ctl.access _ _ _ _ hs).2⟩
      · exfalso
        have := (hI.ctl.low (fun op x xs rs => ⟨fun hh => hs ⟨_, _, _, _, hh⟩, fun hh => ha ⟨_, _, _, _, hh⟩⟩)).1
        rw [this] at h; cases h
  obtain ⟨x, t, h1, h2⟩ := key
  obtain ⟨P, h3, h4⟩ := hI.split
  refine ⟨?_, ?_⟩
  · rw [h3, h1, request_of_drive h2, ← h4]
    simp
  · intro hw
    cases x with
    | write x => rw [← h2] at hw; simp [Bus.drive] at hw
    | read x => rw [← h2]; exact ⟨rfl, rfl⟩

/-! ## C40: exactly once -/

variable {σ : Type}

theorem serial_of_all (slverr : Bool) (f : Access σ) : ∀ (l : List (Op × List Rsp)) (st : σ × Nat),
    (∀ d ∈ l, d.2.length = d.1.xs.length) →
    (serveAll slverr f ((l.map (·.1)).flatMap (·.xs)) st).1 = l.flatMap (·.2) →
    serial slverr f (l.map (·.1)) st = (l, (serveAll slverr f ((l.map (·.1)).flatMap (·.xs)) st).2)
  | [], st, _, _ => rfl
  | d :: l, st, hl, h => by
    simp only [List.map_cons, List.flatMap_cons, serveAll_append] at h ⊢
    have hlen : (serveAll slverr f d.1.xs st).1.length = d.2.length := by
      rw [serveAll_length, hl d (List.mem_cons_self ..)]
    obtain ⟨h1, h2⟩ := List.append_inj h hlen
    have ih := serial_of_all slverr f l _ (fun d hd => hl d (List.mem_cons_of_mem _ hd)) h2
    simp only [serial, ih, h1]

theorem serial_append (slverr : Bool) (f : Access σ) : ∀ (l r : List Op) (st : σ × Nat),
    serial slverr f (l ++ r) st =
      ((serial slverr f l st).1 ++ (serial slverr f r (serial slverr f l st).2).1,
        (serial slverr f r (serial slverr f l st).2).2)
  | [], r, st => rfl
  | o :: l, r, st => by
    simp only [List.cons_append, serial, serial_append slverr f l r]

/-- The part of the invariant that says what the slave has performed. -/
structure Sys.Core (slverr : Bool) (f : Access σ) (y : Sys σ) : Prop where
  m : y.m.Inv
  nacc : y.m.pc.isAccess = false → y.s.pc = .idle ∨ y.s.pc = .stopped
  pre : ∃ rest, y.m.epoch.flatMap (·.xs) = y.s.log ++ rest
  srv : serveAll slverr f y.s.log y.base = (y.m.consumed ++ Sys.answer slverr y.s, (y.s.mem, y.s.prdata))

/-- What the slave has performed: the completed operations, and the beginning of the one under way. -/
theorem Sys.Core.parts {slverr : Bool} {f : Access σ} {y : Sys σ} (h : y.Core slverr f) :
    ∃ pre, y.s.log = (y.m.done.map (·.1)).flatMap (·.xs) ++ pre ∧
      serial slverr f (y.m.done.map (·.1)) y.base =
        (y.m.done, (serveAll slverr f ((y.m.done.map (·.1)).flatMap (·.xs)) y.base).2) ∧
      (y.s.mem, y.s.prdata) = (serveAll slverr f pre (serial slverr f (y.m.done.map (·.1)) y.base).2).2 ∧
      pre <+: y.m.active.flatMap (·.xs) := by
  obtain ⟨rest, hr⟩ := h.pre
  have hlen : y.s.log.length = y.m.consumed.length + (Sys.answer slverr y.s).length := by
    have := congrArg (fun z => z.1.length) h.srv
    simpa [serveAll_length] using this
  have hD := flatMap_len h.m.book.doneLen
  have hcl : y.m.consumed.length = (y.m.done.flatMap (·.2)).length + y.m.pc.got'.length := by
    simp [consumed]
  have hep := h.m.book.epoch
  have hr' := hr
  rw [hep, List.flatMap_append] at hr'
  have hle : ((y.m.done.map (·.1)).flatMap (·.xs)).length ≤ y.s.log.length := by omega
  have hpre : ∃ pre, y.s.log = (y.m.done.map (·.1)).flatMap (·.xs) ++ pre := by
    have : (y.m.done.map (·.1)).flatMap (·.xs) <+: y.s.log :=
      List.prefix_of_prefix_length_le ⟨_, hr'⟩ ⟨_, rfl⟩ hle
    obtain ⟨pre, hp⟩ := this
    exact ⟨pre, hp.symm⟩
  obtain ⟨pre, hpre⟩ := hpre
  have hsrv := h.srv
  rw [hpre, serveAll_append] at hsrv
  have hfst := congrArg Prod.fst hsrv
  simp only [consumed, List.append_assoc] at hfst
  obtain ⟨g1, g2⟩ := List.append_inj hfst (by rw [serveAll_length, hD])
  have hser := serial_of_all slverr f y.m.done y.base h.m.book.doneLen g1
  refine ⟨pre, hpre, hser, ?_, ?_⟩
  · rw [hser]
    exact (congrArg Prod.snd hsrv).symm
  · rw [hpre, List.append_assoc] at hr'
    have hr2 := List.append_cancel_left hr'
    rw [List.flatMap_append] at hr2
    refine List.prefix_of_prefix_length_le ⟨rest, hr2.symm⟩ ⟨_, rfl⟩ ?_
    -- the length of `pre`
    have hpl : pre.length = y.m.pc.got'.length + (Sys.answer slverr y.s).length := by
      have := congrArg List.length hpre
      rw [List.length_append] at this
      omega
    rw [hpl]
    by_cases hacc : y.m.pc.isAccess = true
    · have ⟨op, x, xs, rs, hpc⟩ : ∃ op x xs rs, y.m.pc = .access op x xs rs := by
        cases hp : y.m.pc <;> simp [MPc.isAccess, hp] at hacc ⊢
      obtain ⟨_, p, hp1, hp2⟩ := h.m.ctl.beat _ _ _ _ (.inr (.inr hpc))
      have : (Sys.answer slverr y.s).length ≤ 1 := by unfold Sys.answer; split <;> simp
      simp only [active, hpc, MPc.got', List.flatMap_cons, List.flatMap_nil, List.append_nil, hp1, List.length_append,
        List.length_cons]
      omega
    · simp only [Bool.not_eq_true] at hacc
      have hn : Sys.answer slverr y.s = [] := by
        rcases h.nacc hacc with hs | hs <;> simp [Sys.answer, hs]
      rw [hn]
      cases hpc : y.m.pc with
      | pause op x xs rs =>
        obtain ⟨_, p, hp1, hp2⟩ := h.m.ctl.beat _ _ _ _ (.inl hpc)
        simp [active, hpc, MPc.got', hp1, hp2]
      | setup op x xs rs =>
        obtain ⟨_, p, hp1, hp2⟩ := h.m.ctl.beat _ _ _ _ (.inr (.inl hpc))
        simp [active, hpc, MPc.got', hp1, hp2]
      | access => simp [hpc, MPc.isAccess] at hacc
      | _ => simp [MPc.got']

theorem Sys.Inv.parts {slverr : Bool} {f : Access σ} {y : Sys σ} (h : y.Inv slverr f) :
    ∃ pre, y.s.log = (y.m.done.map (·.1)).flatMap (·.xs) ++ pre ∧
      serial slverr f (y.m.done.map (·.1)) y.base =
        (y.m.done, (serveAll slverr f ((y.m.done.map (·.1)).flatMap (·.xs)) y.base).2) ∧
      (y.s.mem, y.s.prdata) = (serveAll slverr f pre (serial slverr f (y.m.done.map (·.1)) y.base).2).2 ∧
      pre <+: y.m.active.flatMap (·.xs) := (Sys.Core.mk h.m h.nacc h.pre h.srv).parts

/-- **C40, exactly once and in order.** At any time the accesses that the slave has performed on its target since the last
reset are the transfers of the operations called since then, in order, each once, up to some point; the target is in the state
that these accesses, performed one after the other, lead to. -/
theorem C40_exactly_once (slverr : Bool) (f : Access σ) (st : σ) (evs : List Ev) :
    let y := Sys.exec slverr f st evs
    y.s.log <+: y.m.epoch.flatMap (·.xs) ∧ (serveAll slverr f y.s.log y.base).2 = (y.s.mem, y.s.prdata) := by
  intro y
  have h := Sys.exec_inv slverr f st evs
  obtain ⟨rest, hr⟩ := h.pre
  exact ⟨⟨rest, hr.symm⟩, by rw [h.srv]⟩

/-- **C40, the answers.** The operations completed since the last reset are the first ones called since then, and each of them
got exactly the samples (read data and error of each of its transfers) that it gets when the operations are executed one after
the other. -/
theorem C40_answers (slverr : Bool) (f : Access σ) (st : σ) (evs : List Ev) :
    let y := Sys.exec slverr f st evs
    y.m.done <+: (serial slverr f y.m.epoch y.base).1 := by
  intro y
  have h := Sys.exec_inv slverr f st evs
  obtain ⟨pre, _, h2, _⟩ := h.parts
  have hep := h.m.book.epoch
  show y.m.done <+: (serial slverr f y.m.epoch y.base).1
  rw [show y.m.epoch = _ from hep, serial_append, h2]
  exact ⟨_, rfl⟩

/-- **C40, at rest.** When no operation is in flight, the operations called since the last reset have all completed, with the
results of executing them one after the other, and the target is in the state this leads to. -/
theorem C40_idle (slverr : Bool) (f : Access σ) (st : σ) (evs : List Ev) :
    let y := Sys.exec slverr f st evs
    y.m.idle = true → serial slverr f y.m.epoch y.base = (y.m.done, (y.s.mem, y.s.prdata)) := by
  intro y hidle
  have h : y.Inv slverr f := Sys.exec_inv slverr f st evs
  obtain ⟨pre, h1, h2, h3, h4⟩ := h.parts
  have hfl := h.m.book.flight
  simp only [idle, decide_eq_true_eq] at hidle
  have hz : y.m.active ++ y.m.queue = [] := by
    apply List.length_eq_zero_iff.1; omega
  have ha : y.m.active = [] := (List.append_eq_nil_iff.1 hz).1
  rw [ha] at h4
  have hp : pre = [] := by simpa using h4
  rw [h.m.book.epoch, hz, List.append_nil]
  rw [hp] at h3
  simp only [serveAll] at h3
  rw [h3, h2]

/-! ### Results -/

theorem next_results (p : Bool) : ∀ (q : List Op) (s : Master), ∃ l, (next p q s).results = s.results ++ l ∧
    (∀ x ∈ l, ∃ rs, x = (x.1, some rs) ∧ (x.1, rs) ∈ (next p q s).done ∧ x.1 ∈ q) ∧ ∀ d ∈ s.done, d ∈ (next p q s).done
  | [], s => ⟨[], by simp [next]⟩
  | op :: rest, s => by
    unfold next
    split
    · obtain ⟨l, h1, h2, h3⟩ := next_results p rest (({ s with cur := some op } : Master).finish op [])
      refine ⟨(op, some []) :: l, by rw [h1]; simp [finish], ?_, ?_⟩
      · intro x hx
        rcases List.mem_cons.1 hx with rfl | hx
        · exact ⟨[], rfl, h3 _ (by simp [finish]), by simp⟩
        · obtain ⟨rs, g1, g2, g3⟩ := h2 x hx
          exact ⟨rs, g1, g2, List.mem_cons_of_mem _ g3⟩
      · intro d hd
        exact h3 d (by simp [finish, hd])
    · exact ⟨[], by unfold enter; split <;> simp⟩

/-- What an event signals. -/
theorem step_results (slverr : Bool) (s : Master) (e : MEv) : ∃ l, (s.step slverr e).results = s.results ++ l ∧
    (∀ op rs, (op, some rs) ∈ l → (op, rs) ∈ (s.step slverr e).done) ∧
    (e ≠ .reset true → ∀ x ∈ l, x.1 ∈ s.active ++ s.queue) := by
  cases e with
  | call op => exact ⟨[], by simp [Master.step, Master.call]⟩
  | init op => exact ⟨[], by simp [Master.step]⟩
  | runInit i => simp only [Master.step]; split <;> exact ⟨[], by simp [Master.call]⟩
  | resume => simp only [Master.step, Master.resume]; split <;> exact ⟨[], by simp⟩
  | reset v =>
    cases v with
    | true => exact ⟨(s.queue ++ s.cur.toList).map (fun o => (o, none)), by simp [Master.step, Master.reset]⟩
    | false =>
      simp only [Master.step, Master.reset, Bool.false_eq_true, if_false]
      split <;> exact ⟨[], by simp⟩
  | edge p r d er =>
    simp only [Master.step, edge]
    split
    · exact ⟨[], by simp⟩
    · exact ⟨[], by simp⟩
    · obtain ⟨l, h1, h2, _⟩ := next_results p s.queue s
      refine ⟨l, h1, ?_, ?_⟩
      · intro op rs hx
        obtain ⟨rs', g1, g2, _⟩ := h2 _ hx
        cases g1; exact g2
      · intro _ x hx
        obtain ⟨rs', g1, g2, g3⟩ := h2 _ hx
        exact List.mem_append_right _ g3
    · rename_i op hpc
      obtain ⟨l, h1, h2, _⟩ := next_results p (op :: s.queue) s
      refine ⟨l, h1, ?_, ?_⟩
      · intro op rs hx
        obtain ⟨rs', g1, g2, _⟩ := h2 _ hx
        cases g1; exact g2
      · intro _ x hx
        obtain ⟨rs', g1, g2, g3⟩ := h2 _ hx
        simpa [active, hpc] using g3
    · exact ⟨[], by unfold enter; split <;> simp⟩
    · exact ⟨[], by simp⟩
    · rename_i op x xs rs hpc
      split
      · split
        · exact ⟨[], by unfold enter; split <;> simp⟩
        · obtain ⟨l, h1, h2, h3⟩ := next_results p s.queue
            (({ s with bus := { s.bus with penable := false, psel := false } } : Master).finish op
              (rs ++ [(d, if slverr && er then Resp.slverr else Resp.okay)]))
          refine ⟨(op, some (rs ++ [(d, if slverr && er then Resp.slverr else Resp.okay)])) :: l,
            by rw [h1]; simp [finish], ?_, ?_⟩
          · intro op' rs' hx
            rcases List.mem_cons.1 hx with hx | hx
            · cases hx; exact h3 _ (by simp [finish])
            · obtain ⟨rs', g1, g2, _⟩ := h2 _ hx
              cases g1; exact g2
          · intro _ x hx
            rcases List.mem_cons.1 hx with hx | hx
            · subst hx; simp [active, hpc]
            · obtain ⟨rs', g1, g2, g3⟩ := h2 _ hx
              exact List.mem_append_right _ g3
      · exact ⟨[], by simp⟩

/-- An event of the system is an event of its master. -/
theorem sys_master (slverr : Bool) (f : Access σ) (y : Sys σ) (e : Ev) :
    ∃ e', (y.step slverr f e).m = y.m.step slverr e' ∧ (e' = .reset true → e = .reset true) := by
  cases e with
  | call op => exact ⟨.call op, rfl, by simp⟩
  | init op => exact ⟨.init op, rfl, by simp⟩
  | runInit i => exact ⟨.runInit i, rfl, by simp⟩
  | resume => exact ⟨.resume, rfl, by simp⟩
  | edge mp sp slow => exact ⟨.edge mp y.s.pready y.s.prdata y.s.pslverr, rfl, by simp⟩
  | reset v => exact ⟨.reset v, rfl, by simp⟩

/-- **C40, results.** Whatever result a caller has been given, it is that of an operation that completed: at some instant of
the history the operation was among those of `C40_answers`. -/
theorem C40_results (slverr : Bool) (f : Access σ) (st : σ) (evs : List Ev) (op : Op) (rs : List Rsp)
    (h : (op, some rs) ∈ (Sys.exec slverr f st evs).m.results) :
    ∃ n, (op, rs) ∈ (Sys.exec slverr f st (evs.take n)).m.done := by
  obtain ⟨k, hk⟩ : ∃ k, evs.length = k := ⟨_, rfl⟩
  induction k generalizing evs with
  | zero => rw [List.length_eq_zero_iff.1 hk] at h; cases h
  | succ k ih =>
    have hs : evs = evs.take k ++ [evs[k]] := by
      rw [← List.take_succ_eq_append_getElem (by omega), List.take_of_length_le (by omega)]
    have he : Sys.exec slverr f st evs = (Sys.exec slverr f st (evs.take k)).step slverr f evs[k] := by
      conv => lhs; rw [hs]
      rw [Sys.exec, List.foldl_append]; rfl
    obtain ⟨e', h1, _⟩ := sys_master slverr f (Sys.exec slverr f st (evs.take k)) evs[k]
    obtain ⟨l, h2, h3, _⟩ := step_results slverr (Sys.exec slverr f st (evs.take k)).m e'
    rw [he, h1, h2] at h
    rcases List.mem_append.1 h with h | h
    · obtain ⟨n, hn⟩ := ih (evs.take k) h (by simp; omega)
      rw [List.take_take] at hn
      exact ⟨_, hn⟩
    · refine ⟨k + 1, ?_⟩
      rw [List.take_of_length_le (by omega), he, h1]
      exact h3 op rs h

/-! ## C33 - C35 for APB -/

theorem pend_iff {s : Master} (h : s.Inv) (hk : s.issued.Nodup) (op : Op) (hi : op ∈ s.issued) (hl : op ∉ s.lost) :
    op ∈ s.active ++ s.queue ↔ ∀ r, (op, r) ∉ s.results := by
  obtain ⟨st, h1, h2⟩ := h.book.acct
  have hn := h1.nodup_iff.1 hk
  rw [List.append_assoc, List.nodup_append] at hn
  obtain ⟨_, _, hn⟩ := hn
  constructor
  · intro hp r hr
    exact hn op ((h2 op).2 ⟨r, hr⟩) op (List.mem_append_left _ hp) rfl
  · intro hr
    have := h1.mem_iff.1 hi
    rw [List.append_assoc, List.mem_append, List.mem_append] at this
    rcases this with h | h | h
    · obtain ⟨r, h⟩ := (h2 op).1 h; exact absurd h (hr r)
    · exact h
    · exact absurd h hl

/-- **C33 for APB**, as long as no command was lost by a reset (`C34_apb_violated`): `idle()` holds, and `wait()` is
released, exactly when every operation that was called has a result. -/
theorem C33_apb_partial (slverr : Bool) (evs : List MEv) :
    let s := Master.exec slverr evs
    s.idleEv = s.idle ∧
    (s.issued.Nodup → s.lost = [] → (s.idle = true ↔ ∀ op ∈ s.issued, ∃ r, (op, r) ∈ s.results)) := by
  intro s
  have h : s.Inv := exec_inv slverr evs
  refine ⟨h.book.ev, fun hk hl => ?_⟩
  have hfl := h.book.flight
  obtain ⟨st, h1, h2⟩ := h.book.acct
  simp only [idle, decide_eq_true_eq]
  constructor
  · intro h0 op hop
    have hz : s.active ++ s.queue = [] := by apply List.length_eq_zero_iff.1; omega
    have := h1.mem_iff.1 hop
    rw [hz, hl] at this
    exact (h2 op).1 (by simpa using this)
  · intro hall
    have hz : s.active ++ s.queue = [] := by
      rw [List.eq_nil_iff_forall_not_mem]
      intro op hop
      have hi : op ∈ s.issued := h1.mem_iff.2 (List.mem_append_left _ (List.mem_append_right _ hop))
      obtain ⟨r, hr⟩ := hall op hi
      exact (pend_iff h hk op hi (by simp [hl])).1 hop r hr
    rw [hfl, hz]; rfl

/-- **C34 for APB, as far as it holds.** After a reset nothing is in flight and every operation called so far has a result,
except those that a reset found between `get()` and the following clock edge. -/
theorem C34_apb_partial (slverr : Bool) (evs : List MEv) :
    let s := Master.exec slverr evs
    let s' := Master.exec slverr (evs ++ [.reset true])
    s'.idle = true ∧ s'.queue = [] ∧ s'.lost = s.lost ++ s.inHand ∧
    ∀ op ∈ s'.issued, op ∉ s'.lost → ∃ r, (op, r) ∈ s'.results := by
  intro s s'
  have he : s' = s.reset true := by simp [s, s', Master.exec, List.foldl_append, Master.step]
  have h : s'.Inv := exec_inv slverr _
  refine ⟨by rw [he]; simp [Master.reset, idle], by rw [he]; simp [Master.reset], by rw [he]; simp [Master.reset], ?_⟩
  intro op hi hl
  obtain ⟨st, h1, h2⟩ := h.book.acct
  have := h1.mem_iff.1 hi
  have hz : s'.active ++ s'.queue = [] := by rw [he]; simp [Master.reset, active]
  rw [hz] at this
  simp only [List.append_nil, List.mem_append] at this
  rcases this with h | h
  · exact (h2 op).1 h
  · exact absurd h hl

theorem lost_mono (slverr : Bool) (s : Master) (l : List MEv) : s.lost <+: (l.foldl (Master.step slverr) s).lost := by
  have hnext : ∀ (p : Bool) (q : List Op) (s : Master), (next p q s).lost = s.lost := by
    intro p q
    induction q with
    | nil => intro s; rfl
    | cons op q ih =>
      intro s
      unfold next
      split
      · rw [ih]; rfl
      · unfold enter; split <;> rfl
  have hent : ∀ (s : Master) (p : Bool) (op : Op) (x : Xfer) (xs : List Xfer) (rs : List Rsp),
      (s.enter p op x xs rs).lost = s.lost := by
    intro s p op x xs rs; unfold enter; split <;> rfl
  induction l generalizing s with
  | nil => exact List.prefix_rfl
  | cons e l ih =>
    refine List.IsPrefix.trans ?_ (ih _)
    cases e with
    | call op => exact List.prefix_rfl
    | init op => exact List.prefix_rfl
    | runInit i => simp only [Master.step]; split <;> exact List.prefix_rfl
    | resume => simp only [Master.step, Master.resume]; split <;> exact List.prefix_rfl
    | reset v =>
      cases v with
      | true => simp [Master.step, Master.reset]
      | false => simp only [Master.step, Master.reset, Bool.false_eq_true, if_false]; split <;> exact List.prefix_rfl
    | edge p r d er =>
      simp only [Master.step, edge]
      split
      · exact List.prefix_rfl
      · exact List.prefix_rfl
      · rw [hnext]; exact List.prefix_rfl
      · rw [hnext]; exact List.prefix_rfl
      · rw [hent]; exact List.prefix_rfl
      · exact List.prefix_rfl
      · split
        · split
          · rw [hent]; exact List.prefix_rfl
          · rw [hnext]; exact List.prefix_rfl
        · exact List.prefix_rfl

theorem issued_step (slverr : Bool) (s : Master) (e : MEv) : s.issued <+: (s.step slverr e).issued := by
  have hnext : ∀ (p : Bool) (q : List Op) (s : Master), (next p q s).issued = s.issued := by
    intro p q
    induction q with
    | nil => intro s; rfl
    | cons op q ih =>
      intro s
      unfold next
      split
      · rw [ih]; rfl
      · unfold enter; split <;> rfl
  have hent : ∀ (s : Master) (p : Bool) (op : Op) (x : Xfer) (xs : List Xfer) (rs : List Rsp),
      (s.enter p op x xs rs).issued = s.issued := by
    intro s p op x xs rs; unfold enter; split <;> rfl
  cases e with
  | call op => exact ⟨[op], rfl⟩
  | init op => exact List.prefix_rfl
  | runInit i =>
    simp only [Master.step]; split
    · exact ⟨[_], rfl⟩
    · exact List.prefix_rfl
  | resume => simp only [Master.step, Master.resume]; split <;> exact List.prefix_rfl
  | reset v =>
    cases v with
    | true => simp [Master.step, Master.reset]
    | false => simp only [Master.step, Master.reset, Bool.false_eq_true, if_false]; split <;> exact List.prefix_rfl
  | edge p r d er =>
    simp only [Master.step, edge]
    split
    · exact List.prefix_rfl
    · exact List.prefix_rfl
    · rw [hnext]; exact List.prefix_rfl
    · rw [hnext]; exact List.prefix_rfl
    · rw [hent]; exact List.prefix_rfl
    · exact List.prefix_rfl
    · split
      · split
        · rw [hent]; exact List.prefix_rfl
        · rw [hnext]; exact List.prefix_rfl
      · exact List.prefix_rfl

/-- **C34 fails for APB.** A reset that comes after an idle master has been given a command and before the next clock edge
loses the command: whatever happens later, the caller never gets a result, although `idle()` holds. -/
theorem C34_apb_violated (slverr : Bool) (op : Op) (d : Nat) (e : Bool) :
    let evs : List MEv := [.reset false, .edge false false d e, .call op, .resume, .reset true]
    (Master.exec slverr evs).issued = [op] ∧ (Master.exec slverr evs).idle = true ∧
    ∀ more, (Master.exec slverr (evs ++ more)).issued.Nodup → ∀ r, (op, r) ∉ (Master.exec slverr (evs ++ more)).results := by
  intro evs
  refine ⟨rfl, rfl, ?_⟩
  intro more hk r hr
  have h := exec_inv slverr (evs ++ more)
  have hl : op ∈ (Master.exec slverr (evs ++ more)).lost := by
    rw [exec_append]
    refine (lost_mono slverr _ more).subset ?_
    show op ∈ [op]
    simp
  obtain ⟨st, h1, h2⟩ := h.book.acct
  have hn := h1.nodup_iff.1 hk
  rw [List.nodup_append] at hn
  exact hn.2.2 op (List.mem_append_left _ ((h2 op).2 ⟨r, hr⟩)) op hl rfl

/-- **C35 for APB, as far as it holds.** A result stands as long as there is no reset. -/
theorem C35_apb_partial (slverr : Bool) (evs more : List MEv) (hm : MEv.reset true ∉ more)
    (hk : (Master.exec slverr (evs ++ more)).issued.Nodup) (op : Op) (r : Option (List Rsp))
    (h : resultOf (Master.exec slverr evs).results op = some r) :
    resultOf (Master.exec slverr (evs ++ more)).results op = some r := by
  obtain ⟨k, hlen⟩ : ∃ k, more.length = k := ⟨_, rfl⟩
  induction k generalizing more with
  | zero => rw [List.length_eq_zero_iff.1 hlen, List.append_nil]; exact h
  | succ k ih =>
    have hs : more = more.take k ++ [more[k]] := by
      rw [← List.take_succ_eq_append_getElem (by omega), List.take_of_length_le (by omega)]
    have he : Master.exec slverr (evs ++ more) = (Master.exec slverr (evs ++ more.take k)).step slverr more[k] := by
      conv => lhs; rw [hs]
      rw [← List.append_assoc, exec_append]; rfl
    have hI := exec_inv slverr (evs ++ more.take k)
    have hiss : (Master.exec slverr (evs ++ more.take k)).issued.Nodup := by
      rw [he] at hk
      exact hk.sublist (issued_step slverr _ _).sublist
    have ih := ih (more.take k) (fun hh => hm (List.mem_of_mem_take hh)) hiss (by simp; omega)
    obtain ⟨l, h1, _, h3⟩ := step_results slverr (Master.exec slverr (evs ++ more.take k)) more[k]
    have h3 := h3 (fun hh => hm (hh ▸ List.getElem_mem _))
    rw [he, h1]
    simp only [resultOf, List.filter_append] at ih ⊢
    have : l.filter (fun x => x.1 = op) = [] := by
      rw [List.filter_eq_nil_iff]
      intro x hx hxo
      simp only [decide_eq_true_eq] at hxo
      have hp := h3 x hx
      rw [hxo] at hp
      have hne : (Master.exec slverr (evs ++ more.take k)).results.filter (fun x => x.1 = op) ≠ [] := by
        intro hnil; rw [hnil] at ih; simp at ih
      obtain ⟨z, hz⟩ := List.exists_mem_of_ne_nil _ hne
      simp only [List.mem_filter, decide_eq_true_eq] at hz
      obtain ⟨st, a1, a2⟩ := hI.book.acct
      have hn := a1.nodup_iff.1 hiss
      rw [List.append_assoc, List.nodup_append] at hn
      refine hn.2.2 op ((a2 op).2 ⟨z.2, ?_⟩) op (List.mem_append_left _ hp) rfl
      rw [← hz.2]; exact hz.1
    rw [this, List.append_nil]; exact ih

/-- **C35 fails for APB.** A completed command stays the "current" one, so that a reset long after its completion signals its
event again, with `None`. -/
theorem C35_apb_violated :
    ∃ (evs : List MEv) (op : Op) (r : List Rsp), (Master.exec true (evs ++ [.reset true])).issued.Nodup ∧
      (Master.exec true evs).idle = true ∧ resultOf (Master.exec true evs).results op = some (some r) ∧
      resultOf (Master.exec true (evs ++ [.reset true])).results op = some none :=
  ⟨[.reset false, .edge false false 0 false, .call ⟨0, [.read ⟨4, 2⟩]⟩, .resume, .edge false false 0 false,
      .edge false false 0 false, .edge false true 7 false, .edge false false 0 false, .edge false false 0 false],
    ⟨0, [.read ⟨4, 2⟩]⟩, [(7, .okay)], by decide +kernel⟩

/-! ## The hypotheses are met

A register as target; a write of 7 and a read, with a pause of the master, a pause of the slave and a slow access. -/

/-- A single register: a write replaces it, a read returns it. -/
def register : Access Nat
  | .write x, _ => ((none, false), x.data)
  | .read _, n => ((some n, false), n)

/-- Two operations of one transfer each. -/
def opW : Op := ⟨0, [.write ⟨4, 0, 7, 15⟩]⟩
def opR : Op := ⟨1, [.read ⟨4, 0⟩]⟩

def history : List Ev :=
  [.reset false, .edge false false false, .call opW, .call opR, .resume, .edge true false false, .edge false false false,
   .edge false true false, .edge false false true, .edge false false false, .edge false false false, .edge false false false,
   .edge false false false, .edge false false false]

/-- both operations completed, the read returns what was written, the bus carried one access each -/
example :
    let y := Sys.exec true register 3 history
    y.m.done = [(opW, [(0, .okay)]), (opR, [(7, .okay)])] ∧ y.s.log = [.write ⟨4, 0, 7, 15⟩, .read ⟨4, 0⟩] ∧
      y.m.idle = true ∧ y.s.mem = 7 ∧ y.m.results = [(opW, some [(0, .okay)]), (opR, some [(7, .okay)])] := by
  decide

/-- in the middle of it, the slave is selected and has not answered -/
example :
    let y := Sys.exec true register 3 (history.take 8)
    y.m.bus.psel = true ∧ y.m.bus.penable = true ∧ y.s.log = [] ∧ y.m.idle = false := by
  decide

/-- a history of the master alone in which it waits in an access (hypotheses of `C39_protocol`, `C39_transfers`) -/
example :
    let b := (Master.exec true [.reset false, .edge false false 0 false, .call opW, .resume, .edge false false 0 false,
      .edge false false 0 false]).bus
    b.psel = true ∧ b.penable = true ∧ b.request = .write ⟨4, 0, 7, 15⟩ := by
  decide

end Verif.Apb
