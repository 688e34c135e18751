import Verif.Model.ApbClock
import Verif.Proof.ApbSys

/-!
# The APB system, coroutine by coroutine, refines the one with one event for each clock edge
-/

namespace Verif.Apb
namespace CSys

variable {σ : Type} {slverr : Bool} {f : Access σ} {st : σ}

/-- The states of the slave that the model with one event for each edge may be in: an access that has not returned may return before the next edge, in which
case that model has it return at once. -/
def Alt (s s' : Slave σ) : Prop := s' = s ∨ s' = returned s

/-- `y` is a state of the system with one event for each clock edge. -/
def Reach (slverr : Bool) (f : Access σ) (st : σ) (y : Sys σ) : Prop := ∃ evs, Sys.exec slverr f st evs = y

theorem Reach.step {y : Sys σ} (h : Reach slverr f st y) (e : Ev) : Reach slverr f st (y.step slverr f e) := by
  obtain ⟨evs, rfl⟩ := h
  exact ⟨evs ++ [e], by simp [Sys.exec]⟩

/-- The signals have the values written last. -/
def Fresh (c : CSys σ) (m : Master) (s : Slave σ) : Prop :=
  c.bus = m.bus ∧ c.pready = s.pready ∧ c.prdata = s.prdata ∧ c.pslverr = s.pslverr

/-- How the two systems correspond, by what is due. -/
def Abs (slverr : Bool) (f : Access σ) (st : σ) (c : CSys σ) : Prop :=
  (c.settled = true → Fresh c c.y.m c.y.s) ∧
  match c.mdue, c.sdue with
  | false, false => ∀ s', Alt c.y.s s' → Reach slverr f st { c.y with s := s' }
  | true, true => Fresh c c.y.m c.y.s ∧ c.y.s.pc ≠ .busy ∧ Reach slverr f st c.y
  | true, false => ∃ s0, Fresh c c.y.m s0 ∧ Reach slverr f st { c.y with s := s0 } ∧
      ∀ s', Alt c.y.s s' → ∃ sp slow, s' = s0.edge f sp slow c.bus
  | false, true => c.y.s.pc ≠ .busy ∧ ∀ sp slow, Reach slverr f st { c.y with s := c.y.s.edge f sp slow c.bus }

theorem returned_returned (s : Slave σ) : returned (returned s) = returned s := by
  cases h : s.pc <;> simp [returned, h]

theorem returned_ne {s : Slave σ} (h : s.pc ≠ .busy) : returned s = s := by
  cases hp : s.pc <;> simp_all [returned]

theorem returned_edge {s : Slave σ} (h : s.pc ≠ .busy) (sp : Bool) (b : Bus) : returned (s.edge f sp true b) = s.edge f sp false b := by
  cases hp : s.pc with
  | stopped => simp [Slave.edge, hp, returned]
  | busy => exact absurd hp h
  | ready => simp [Slave.edge, hp, returned]
  | idle =>
    simp only [Slave.edge, hp]
    split
    · split
      · simp [returned]
      · simp [returned, Slave.perform]
    · simp [returned, hp]
  | paused a =>
    simp only [Slave.edge, hp]
    split
    · simp [returned, hp]
    · simp [returned, Slave.perform]

theorem alt_edge {s s' : Slave σ} (h : s.pc ≠ .busy) {sp : Bool} {b : Bus} (ha : Alt (s.edge f sp true b) s') :
    ∃ slow, s' = s.edge f sp slow b := by
  rcases ha with rfl | rfl
  · exact ⟨true, rfl⟩
  · exact ⟨false, returned_edge h sp b⟩

theorem alt_returned {s s' : Slave σ} (h : Alt (returned s) s') : Alt s s' := by
  rcases h with rfl | rfl
  · exact .inr rfl
  · exact .inr (returned_returned s)

theorem edge_waits {m : Master} (h : m.pc.awaits = false) (p r : Bool) (d : Nat) (e : Bool) : m.edge slverr p r d e = m := by
  cases hp : m.pc <;> simp_all [MPc.awaits, Master.edge]

/-- What a call or the wake-up leaves alone. -/
theorem own_bus (m : Master) (e : MEv) (h : (∃ op, e = .call op) ∨ (∃ op, e = .init op) ∨ (∃ i, e = .runInit i) ∨ e = .resume) :
    (m.step slverr e).bus = m.bus := by
  rcases h with ⟨op, rfl⟩ | ⟨op, rfl⟩ | ⟨i, rfl⟩ | rfl
  · rfl
  · rfl
  · simp only [Master.step]; split <;> rfl
  · simp only [Master.step, Master.resume]; split <;> rfl

theorem abs_side {c : CSys σ} (h : c.Abs slverr f st) (e : MEv) (e' : Ev)
    (hm : ∀ y : Sys σ, y.step slverr f e' = { y with m := y.m.step slverr e }) (hb : (c.y.m.step slverr e).bus = c.y.m.bus) :
    (c.side slverr e).Abs slverr f st := by
  obtain ⟨h0, h⟩ := h
  refine ⟨fun hs => ?_, ?_⟩
  · obtain ⟨a, b⟩ := h0 hs
    exact ⟨a.trans hb.symm, b⟩
  · simp only [side]
    cases hmd : c.mdue <;> cases hsd : c.sdue <;> rw [hmd, hsd] at h <;> dsimp only at h ⊢
    · intro s' hs'
      have := (h s' hs').step e'
      rw [hm] at this
      exact this
    · refine ⟨h.1, fun sp slow => ?_⟩
      have := (h.2 sp slow).step e'
      rw [hm] at this
      exact this
    · obtain ⟨s0, ⟨a, b⟩, h2, h3⟩ := h
      refine ⟨s0, ⟨a.trans hb.symm, b⟩, ?_, h3⟩
      have := h2.step e'
      rw [hm] at this
      exact this
    · obtain ⟨⟨a, b⟩, h2, h3⟩ := h
      refine ⟨⟨a.trans hb.symm, b⟩, h2, ?_⟩
      have := h3.step e'
      rw [hm] at this
      exact this

theorem abs_step {c : CSys σ} (h : c.Abs slverr f st) (e : CEv) : (c.step slverr f e).Abs slverr f st := by
  cases e with
  | call op => exact abs_side h (.call op) (.call op) (fun _ => rfl) (own_bus _ _ (.inl ⟨op, rfl⟩))
  | init op => exact abs_side h (.init op) (.init op) (fun _ => rfl) (own_bus _ _ (.inr (.inl ⟨op, rfl⟩)))
  | runInit i => exact abs_side h (.runInit i) (.runInit i) (fun _ => rfl) (own_bus _ _ (.inr (.inr (.inl ⟨i, rfl⟩))))
  | resume => exact abs_side h .resume .resume (fun _ => rfl) (own_bus _ _ (.inr (.inr (.inr rfl))))
  | mpause v => exact h
  | spause v => exact h
  | tick =>
    simp only [step]
    split
    · rename_i hc
      simp only [Bool.and_eq_true, Bool.not_eq_true'] at hc
      obtain ⟨⟨hs, hm⟩, hsd⟩ := hc
      obtain ⟨h0, h⟩ := h
      have h0 := h0 hs
      rw [hm, hsd] at h
      dsimp only at h
      refine ⟨by simp, ?_⟩
      cases hma : c.y.m.pc.awaits <;> cases hsa : c.y.s.pc.awaits <;> dsimp only
      · exact h
      · refine ⟨fun hb => by simp [hb, SPc.awaits] at hsa, fun sp slow => ?_⟩
        have := (h _ (.inl rfl)).step (.edge true sp slow)
        simp only [Sys.step, Master.step, edge_waits hma] at this
        rw [h0.1]
        exact this
      · refine ⟨c.y.s, h0, h _ (.inl rfl), ?_⟩
        intro s' hs'
        cases hp : c.y.s.pc <;> simp [hp, SPc.awaits] at hsa
        · refine ⟨true, true, ?_⟩
          rcases hs' with rfl | rfl <;> simp [Slave.edge, hp, returned]
        · rcases hs' with rfl | rfl
          · exact ⟨true, true, by simp [Slave.edge, hp]⟩
          · exact ⟨true, false, by simp [Slave.edge, hp, returned]⟩
      · exact ⟨h0, fun hb => by simp [hb, SPc.awaits] at hsa, h _ (.inl rfl)⟩
    · exact h
  | mrun =>
    simp only [step]
    split
    · rename_i hm
      obtain ⟨_, h⟩ := h
      refine ⟨by simp, ?_⟩
      rw [hm] at h
      cases hsd : c.sdue <;> rw [hsd] at h <;> dsimp only at h ⊢
      · obtain ⟨s0, ⟨a, b1, b2, b3⟩, h2, h3⟩ := h
        intro s' hs'
        obtain ⟨sp, slow, rfl⟩ := h3 s' hs'
        have := h2.step (.edge c.mpause sp slow)
        simp only [Sys.step, Master.step] at this
        rw [a, b1, b2, b3]
        exact this
      · obtain ⟨⟨a, b1, b2, b3⟩, h2, h3⟩ := h
        refine ⟨h2, fun sp slow => ?_⟩
        have := h3.step (.edge c.mpause sp slow)
        simp only [Sys.step, Master.step] at this
        rw [a, b1, b2, b3]
        exact this
    · exact h
  | srun =>
    simp only [step]
    split
    · rename_i hs
      obtain ⟨_, h⟩ := h
      refine ⟨by simp, ?_⟩
      rw [hs] at h
      cases hmd : c.mdue <;> rw [hmd] at h <;> dsimp only at h ⊢
      · intro s' hs'
        obtain ⟨slow, rfl⟩ := alt_edge h.1 hs'
        exact h.2 c.spause slow
      · obtain ⟨h1, h2, h3⟩ := h
        refine ⟨c.y.s, h1, h3, fun s' hs' => ?_⟩
        obtain ⟨slow, rfl⟩ := alt_edge h2 hs'
        exact ⟨c.spause, slow, rfl⟩
    · exact h
  | back =>
    simp only [step]
    by_cases hb : c.y.s.pc = .busy
    · obtain ⟨_, h⟩ := h
      refine ⟨by simp [hb], ?_⟩
      cases hmd : c.mdue <;> cases hsd : c.sdue <;> rw [hmd, hsd] at h <;> dsimp only at h ⊢
      · exact fun s' hs' => h s' (alt_returned hs')
      · exact absurd hb h.1
      · obtain ⟨s0, h1, h2, h3⟩ := h
        exact ⟨s0, h1, h2, fun s' hs' => h3 s' (alt_returned hs')⟩
      · exact absurd hb h.2.1
    · rw [returned_ne hb]
      simp only [hb, decide_false, Bool.not_false, Bool.and_true]
      exact h
  | commit =>
    simp only [step]
    split
    · rename_i hc
      simp only [Bool.and_eq_true, Bool.not_eq_true'] at hc
      obtain ⟨_, h⟩ := h
      rw [hc.1, hc.2] at h
      refine ⟨fun _ => ⟨rfl, rfl, rfl, rfl⟩, ?_⟩
      rw [hc.1, hc.2]
      exact h
    · exact h
  | reset v =>
    simp only [step]
    split
    · rename_i hc
      simp only [Bool.and_eq_true, Bool.not_eq_true'] at hc
      obtain ⟨_, h⟩ := h
      rw [hc.1, hc.2] at h
      refine ⟨by simp, ?_⟩
      rw [hc.1, hc.2]
      dsimp only at h ⊢
      intro s' hs'
      cases v with
      | true =>
        have e : s' = c.y.s.reset true := by
          rcases hs' with rfl | rfl
          · rfl
          · simp [Sys.step, Slave.reset, returned]
        subst e
        exact (h _ (.inl rfl)).step (.reset true)
      | false =>
        by_cases hp : c.y.s.pc = .stopped
        · have e : s' = c.y.s.reset false := by
            rcases hs' with rfl | rfl
            · rfl
            · simp [Sys.step, Slave.reset, returned, hp]
          subst e
          exact (h _ (.inl rfl)).step (.reset false)
        · have e1 : c.y.s.reset false = c.y.s := by simp [Slave.reset, hp]
          have e2 : Alt c.y.s s' := by
            simp only [Sys.step, e1] at hs'
            exact hs'
          have e3 : s'.reset false = s' := by
            have : s'.pc ≠ .stopped := by
              rcases e2 with rfl | rfl
              · exact hp
              · cases hq : c.y.s.pc <;> simp_all [returned]
            simp [Slave.reset, this]
          have := (h s' e2).step (.reset false)
          simp only [Sys.step, e3] at this
          exact this
    · exact h

theorem abs_exec (slverr : Bool) (f : Access σ) (st : σ) (evs : List CEv) : (exec slverr f st evs).Abs slverr f st := by
  have : ∀ (evs : List CEv) (c : CSys σ), c.Abs slverr f st → (evs.foldl (step slverr f) c).Abs slverr f st := by
    intro evs
    induction evs with
    | nil => exact fun c h => h
    | cons e evs ih => exact fun c h => ih _ (abs_step h e)
  refine this evs _ ⟨by simp, ?_⟩
  intro s' hs'
  refine ⟨[], ?_⟩
  rcases hs' with rfl | rfl <;> simp [Sys.exec, Sys.start, returned]

end CSys
end Verif.Apb
