import Verif.Spec.Apb

/-!
# Invariants of the APB master
-/

namespace Verif.Apb
namespace Master

/-- The operation `_run` is working on. -/
def active (s : Master) : List Op :=
  match s.pc with
  | .got op | .pause op _ _ _ | .setup op _ _ _ | .access op _ _ _ => [op]
  | _ => []

/-- The bookkeeping, with `q` the operations without a result. -/
structure Book (s : Master) (q : List Op) : Prop where
  epoch : s.epoch = s.done.map (·.1) ++ q
  doneLen : ∀ d ∈ s.done, d.2.length = d.1.xs.length
  doneRes : ∀ d ∈ s.done, (d.1, some d.2) ∈ s.results
  acct : ∃ st, s.issued.Perm (st ++ q ++ s.lost) ∧ ∀ op, op ∈ st ↔ ∃ r, (op, r) ∈ s.results
  flight : s.inFlight = q.length
  ev : s.idleEv = s.idle

theorem Book.frame {s s' : Master} {q : List Op} (h : s.Book q) (e1 : s'.epoch = s.epoch := by rfl)
    (e2 : s'.done = s.done := by rfl) (e3 : s'.results = s.results := by rfl) (e4 : s'.issued = s.issued := by rfl)
    (e5 : s'.lost = s.lost := by rfl) (e6 : s'.inFlight = s.inFlight := by rfl)
    (e7 : s'.idleEv = s.idleEv := by rfl) : s'.Book q := by
  obtain ⟨h1, h2, h3, h4, h5, h6⟩ := h
  refine ⟨by rw [e1, e2]; exact h1, by rw [e2]; exact h2, by rw [e2, e3]; exact h3, by rw [e3, e4, e5]; exact h4,
    by rw [e6]; exact h5, ?_⟩
  rw [e7, h6]; simp only [idle, e6]

theorem Book.finish {s : Master} {op : Op} {q : List Op} (h : s.Book (op :: q)) {rs : List Rsp}
    (hl : rs.length = op.xs.length) : (s.finish op rs).Book q := by
  obtain ⟨h1, h2, h3, ⟨st, h4, h4'⟩, h5, h6⟩ := h
  refine ⟨?_, ?_, ?_, ⟨st ++ [op], ?_, ?_⟩, ?_, ?_⟩
  · simp [Master.finish, h1]
  · intro d hd
    rcases List.mem_append.1 hd with hd | hd
    · exact h2 d hd
    · rw [List.mem_singleton] at hd; subst hd; exact hl
  · intro d hd
    rcases List.mem_append.1 hd with hd | hd
    · exact List.mem_append_left _ (h3 d hd)
    · rw [List.mem_singleton] at hd; subst hd; simp [Master.finish]
  · show s.issued.Perm _
    simpa [Master.finish] using h4
  · intro o
    simp only [Master.finish, List.mem_append, h4', List.mem_singleton, Prod.mk.injEq]
    constructor
    · rintro (⟨r, hr⟩ | rfl)
      · exact ⟨r, .inl hr⟩
      · exact ⟨_, .inr ⟨rfl, rfl⟩⟩
    · rintro ⟨r, hr | hr⟩
      · exact .inl ⟨r, hr⟩
      · exact .inr hr.1
  · simp only [Master.finish, List.length_cons] at h5 ⊢; omega
  · have : s.inFlight ≠ 0 := by simp only [List.length_cons] at h5; omega
    simp only [Master.finish, idle] at h6 ⊢
    rw [h6]; simp [this]; rfl

/-- The bus and the local variables of `_run`. -/
structure Ctl (s : Master) : Prop where
  low : (∀ op x xs rs, s.pc ≠ .setup op x xs rs ∧ s.pc ≠ .access op x xs rs) → s.bus.psel = false ∧ s.bus.penable = false
  setup : ∀ op x xs rs, s.pc = .setup op x xs rs → s.bus.penable = false ∧ s.bus.drive x = s.bus
  access : ∀ op x xs rs, s.pc = .access op x xs rs → s.bus.penable = true ∧ s.bus.drive x = s.bus
  beat : ∀ op x xs rs, s.pc = .pause op x xs rs ∨ s.pc = .setup op x xs rs ∨ s.pc = .access op x xs rs →
    s.cur = some op ∧ ∃ pre, op.xs = pre ++ x :: xs ∧ pre.length = rs.length
  cur : ∀ op, s.cur = some op → (op ∈ s.active ∧ s.inHand = []) ∨ ∃ r, (op, r) ∈ s.results

structure Inv (s : Master) : Prop where
  book : s.Book (s.active ++ s.queue)
  ctl : s.Ctl

theorem inv_init : Inv {} where
  book := ⟨rfl, by simp, by simp, ⟨[], by simp [active], by simp⟩, rfl, rfl⟩
  ctl := ⟨by simp, by simp, by simp, by simp, by simp⟩

theorem drive_drive (b : Bus) (x : Xfer) : (b.drive x).drive x = b.drive x := by cases x <;> rfl

theorem drive_sel (b : Bus) (x : Xfer) : (b.drive x).psel = true := by cases x <;> rfl

theorem drive_en (b : Bus) (x : Xfer) : (b.drive x).penable = b.penable := by cases x <;> rfl

/-- Entering a transfer. -/
theorem enter_inv {s : Master} {op : Op} {x : Xfer} {xs : List Xfer} {rs : List Rsp} (paused : Bool)
    (hb : s.Book (op :: s.queue)) (hc : s.cur = some op) (hx : ∃ pre, op.xs = pre ++ x :: xs ∧ pre.length = rs.length)
    (hlow : s.bus.psel = false ∧ s.bus.penable = false) : (s.enter paused op x xs rs).Inv := by
  unfold enter
  split
  · refine ⟨hb.frame, ⟨fun _ => hlow, by simp, by simp, ?_, ?_⟩⟩
    · intro op' x' xs' rs' h
      rcases h with h | h | h <;> cases h
      exact ⟨hc, hx⟩
    · intro o ho
      simp only [hc, Option.some.injEq] at ho
      subst ho
      exact .inl ⟨by simp [active], by simp [inHand]⟩
  · refine ⟨hb.frame, ⟨?_, ?_, by simp, ?_, ?_⟩⟩
    · intro h; exact absurd rfl (h op x xs rs).1
    · intro op' x' xs' rs' h
      cases h
      exact ⟨by rw [drive_en]; exact hlow.2, drive_drive _ _⟩
    · intro op' x' xs' rs' h
      rcases h with h | h | h <;> cases h
      exact ⟨hc, hx⟩
    · intro o ho
      simp only [hc, Option.some.injEq] at ho
      subst ho
      exact .inl ⟨by simp [active], by simp [inHand]⟩

/-- The head of the loop. -/
theorem next_inv (paused : Bool) : ∀ (q : List Op) (s : Master), s.Book q →
    (∀ op, s.cur = some op → ∃ r, (op, r) ∈ s.results) → s.bus.psel = false ∧ s.bus.penable = false →
    (next paused q s).Inv
  | [], s, hb, hc, hlow => by
    refine ⟨hb.frame, ⟨fun _ => hlow, by simp [next], by simp [next], by simp [next], ?_⟩⟩
    intro op ho; exact .inr (hc op ho)
  | op :: rest, s, hb, hc, hlow => by
    unfold next
    split
    · rename_i hx
      have hb' : ({ s with cur := some op } : Master).Book (op :: rest) := hb.frame
      refine next_inv paused rest _ (hb'.finish (by simp [hx])) ?_ hlow
      intro o ho
      simp only [finish, Option.some.injEq] at ho
      subst ho
      exact ⟨some [], by simp [finish]⟩
    · rename_i x xs hx
      exact enter_inv paused hb.frame rfl ⟨[], by simp [hx], rfl⟩ hlow

theorem call_inv {s : Master} (h : s.Inv) (op : Op) : (s.call op).Inv := by
  obtain ⟨⟨h1, h2, h3, ⟨st, h4, h4'⟩, h5, h6⟩, ⟨c1, c2, c3, c4, c5⟩⟩ := h
  refine ⟨⟨?_, h2, h3, ⟨st, ?_, h4'⟩, ?_, ?_⟩, ⟨c1, c2, c3, c4, c5⟩⟩
  · show s.epoch ++ [op] = s.done.map (·.1) ++ (s.active ++ (s.queue ++ [op]))
    rw [h1]; simp
  · show (s.issued ++ [op]).Perm (st ++ (s.active ++ (s.queue ++ [op])) ++ s.lost)
    refine (h4.append_right [op]).trans ?_
    have : st ++ (s.active ++ s.queue) ++ s.lost ++ [op] = (st ++ (s.active ++ s.queue)) ++ (s.lost ++ [op]) := by simp
    rw [this]
    have : st ++ (s.active ++ (s.queue ++ [op])) ++ s.lost = (st ++ (s.active ++ s.queue)) ++ ([op] ++ s.lost) := by simp
    rw [this]
    exact List.Perm.append_left _ List.perm_append_comm
  · show s.inFlight + 1 = ((s.active ++ (s.queue ++ [op])).length : Int)
    simp only [List.length_append, List.length_cons, List.length_nil] at h5 ⊢
    omega
  · have : s.inFlight + 1 ≠ 0 := by omega
    simp [call, idle, this]

theorem edge_inv {s : Master} (h : s.Inv) (slverr paused pready : Bool) (prdata : Nat) (pslverr : Bool) :
    (s.edge slverr paused pready prdata pslverr).Inv := by
  obtain ⟨hb, c1, c2, c3, c4, c5⟩ := h
  unfold edge
  split
  · exact ⟨hb, c1, c2, c3, c4, c5⟩
  · exact ⟨hb, c1, c2, c3, c4, c5⟩
  · rename_i hpc
    have ha : s.active = [] := by simp [active, hpc]
    rw [ha] at hb
    refine next_inv _ _ _ hb ?_ (c1 (by simp [hpc]))
    intro op ho
    rcases c5 op ho with h | h
    · simp [ha] at h
    · exact h
  · rename_i op hpc
    have ha : s.active = [op] := by simp [active, hpc]
    rw [ha] at hb
    refine next_inv _ _ _ hb ?_ (c1 (by simp [hpc]))
    intro op ho
    rcases c5 op ho with h | h
    · simp [inHand, hpc] at h
    · exact h
  · rename_i op x xs rs hpc
    have ha : s.active = [op] := by simp [active, hpc]
    rw [ha] at hb
    obtain ⟨k1, k2⟩ := c4 _ _ _ _ (.inl hpc)
    exact enter_inv _ hb k1 k2 (c1 (by simp [hpc]))
  · rename_i op x xs rs hpc
    have ha : s.active = [op] := by simp [active, hpc]
    rw [ha] at hb
    obtain ⟨k1, k2⟩ := c4 _ _ _ _ (.inr (.inl hpc))
    obtain ⟨k3, k4⟩ := c2 _ _ _ _ hpc
    refine ⟨hb.frame, ⟨?_, by simp, ?_, ?_, ?_⟩⟩
    · intro h; exact absurd rfl (h op x xs rs).2
    · intro op' x' xs' rs' h
      cases h
      refine ⟨rfl, ?_⟩
      show Bus.drive { s.bus with penable := true } x = { s.bus with penable := true }
      have : Bus.drive { s.bus with penable := true } x = { s.bus.drive x with penable := true } := by cases x <;> rfl
      rw [this, k4]
    · intro op' x' xs' rs' h
      rcases h with h | h | h <;> cases h
      exact ⟨k1, k2⟩
    · intro o ho
      rcases c5 o ho with h | h
      · exact .inl ⟨by simpa [active, hpc] using h.1, by simp [inHand]⟩
      · exact .inr h
  · rename_i op x xs rs hpc
    split
    · have ha : s.active = [op] := by simp [active, hpc]
      rw [ha] at hb
      obtain ⟨k1, pre, k2, k3⟩ := c4 _ _ _ _ (.inr (.inr hpc))
      simp only
      split
      · rename_i x' xs'
        exact enter_inv paused hb.frame k1 ⟨pre ++ [x], by simp [k2], by simp [k3]⟩ ⟨rfl, rfl⟩
      · refine next_inv _ _ _ (Book.finish (hb.frame) (by simp [k2, k3])) ?_ ⟨rfl, rfl⟩
        intro o ho
        simp only [finish, k1, Option.some.injEq] at ho
        subst ho
        exact ⟨_, by simp [finish]; exact .inr rfl⟩
    · exact ⟨hb, c1, c2, c3, c4, c5⟩

theorem resume_inv {s : Master} (h : s.Inv) : s.resume.Inv := by
  unfold resume
  split
  · rename_i op rest hpc hq
    obtain ⟨hb, c1, c2, c3, c4, c5⟩ := h
    have ha : s.active = [] := by simp [active, hpc]
    rw [ha, hq] at hb
    refine ⟨hb.frame, ⟨fun _ => c1 (by simp [hpc]), by simp, by simp, by simp, ?_⟩⟩
    intro o ho
    rcases c5 o ho with h | h
    · simp [ha] at h
    · exact .inr h
  · exact h

theorem reset_inv {s : Master} (h : s.Inv) (v : Bool) : (s.reset v).Inv := by
  unfold reset
  split
  · obtain ⟨⟨h1, h2, h3, ⟨st, h4, h4'⟩, h5, h6⟩, ⟨c1, c2, c3, c4, c5⟩⟩ := h
    refine ⟨⟨rfl, by simp, by simp, ?_, rfl, rfl⟩, ⟨fun _ => ⟨rfl, rfl⟩, by simp, by simp, by simp, by simp⟩⟩
    by_cases hh : s.inHand = []
    · refine ⟨st ++ (s.active ++ s.queue), ?_, ?_⟩
      · simp only [hh, active, List.append_nil]; exact h4
      · intro o
        simp only [List.mem_append, h4', List.mem_map, Prod.mk.injEq, Option.mem_toList]
        have hcur : o ∈ s.active → s.cur = some o := by
          intro ho
          cases hpc : s.pc <;> simp only [active, hpc, List.mem_singleton, List.not_mem_nil] at ho
          · simp [inHand, hpc] at hh
          · subst ho; exact (c4 _ _ _ _ (.inl hpc)).1
          · subst ho; exact (c4 _ _ _ _ (.inr (.inl hpc))).1
          · subst ho; exact (c4 _ _ _ _ (.inr (.inr hpc))).1
        constructor
        · rintro (⟨r, hr⟩ | h | h)
          · exact ⟨r, .inl hr⟩
          · exact ⟨none, .inr ⟨o, .inr (hcur h), rfl, rfl⟩⟩
          · exact ⟨none, .inr ⟨o, .inl h, rfl, rfl⟩⟩
        · rintro ⟨r, hr | ⟨o', ho, rfl, _⟩⟩
          · exact .inl ⟨r, hr⟩
          · rcases ho with h | h
            · exact .inr (.inr h)
            · rcases c5 _ h with h | h
              · exact .inr (.inl h.1)
              · exact .inl h
    · have ⟨op, hpc⟩ : ∃ op, s.pc = .got op := by
        cases hpc : s.pc <;> simp [inHand, hpc] at hh ⊢
      have ha : s.active = [op] := by simp [active, hpc]
      have hi : s.inHand = [op] := by simp [inHand, hpc]
      refine ⟨st ++ s.queue, ?_, ?_⟩
      · simp only [hi, active, List.append_nil]
        rw [ha] at h4
        refine h4.trans ?_
        have e1 : st ++ ([op] ++ s.queue) ++ s.lost = st ++ ([op] ++ (s.queue ++ s.lost)) := by simp
        have e2 : st ++ s.queue ++ (s.lost ++ [op]) = st ++ ((s.queue ++ s.lost) ++ [op]) := by simp
        rw [e1, e2]
        exact List.Perm.append_left _ List.perm_append_comm
      · intro o
        simp only [List.mem_append, h4', List.mem_map, Prod.mk.injEq, Option.mem_toList]
        constructor
        · rintro (⟨r, hr⟩ | h)
          · exact ⟨r, .inl hr⟩
          · exact ⟨none, .inr ⟨o, .inl h, rfl, rfl⟩⟩
        · rintro ⟨r, hr | ⟨o', ho, rfl, _⟩⟩
          · exact .inl ⟨r, hr⟩
          · rcases ho with h | h
            · exact .inr h
            · rcases c5 _ h with h | h
              · exact absurd h.2 hh
              · exact .inl h
  · split
    · rename_i hpc
      obtain ⟨hb, c1, c2, c3, c4, c5⟩ := h
      have ha : s.active = [] := by simp [active, hpc]
      rw [ha] at hb
      refine ⟨hb.frame, ⟨fun _ => c1 (by simp [hpc]), by simp, by simp, by simp, ?_⟩⟩
      intro o ho
      rcases c5 o ho with h | h
      · simp [ha] at h
      · exact .inr h
    · exact h

theorem step_inv {s : Master} (h : s.Inv) (slverr : Bool) (e : MEv) : (s.step slverr e).Inv := by
  cases e with
  | call op => exact call_inv h op
  | init op => exact ⟨h.book.frame, ⟨h.ctl.1, h.ctl.2, h.ctl.3, h.ctl.4, h.ctl.5⟩⟩
  | runInit i =>
    simp only [step]
    split
    · apply call_inv
      exact ⟨h.book.frame, ⟨h.ctl.1, h.ctl.2, h.ctl.3, h.ctl.4, h.ctl.5⟩⟩
    · exact h
  | resume => exact resume_inv h
  | edge p r d e => exact edge_inv h _ _ _ _ _
  | reset v => exact reset_inv h v

theorem exec_inv (slverr : Bool) (evs : List MEv) : (exec slverr evs).Inv := by
  suffices H : ∀ s : Master, s.Inv → (evs.foldl (step slverr) s).Inv from H _ inv_init
  induction evs with
  | nil => intro s h; exact h
  | cons e evs ih => intro s h; exact ih _ (step_inv h slverr e)

end Master
end Verif.Apb
