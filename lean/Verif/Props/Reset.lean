import Verif.Spec.Reset

/-!
# C58, C59: reset
-/

namespace Verif.Reset

theorem update_state (s : Rst) : s.update.state = (s.localReset || s.ext) ∧ s.update.localReset = s.localReset ∧
    s.update.ext = s.ext ∧ s.update.level = s.level ∧ s.update.armed = s.armed := by
  unfold Rst.update
  simp only
  split
  · exact ⟨rfl, rfl, rfl, rfl, rfl⟩
  · rename_i h
    exact ⟨by simpa using h, rfl, rfl, rfl, rfl⟩

theorem update_calls (s : Rst) : s.update.calls = s.calls ++ changes s.state [s.localReset || s.ext] := by
  unfold Rst.update
  simp only [changes]
  split
  · rename_i h
    rw [if_neg (fun hh => h hh.symm)]
  · rename_i h
    rw [if_pos (by simp at h; exact h.symm), List.append_nil]

theorem changes_append (p : Bool) (l m : List Bool) : changes p (l ++ m) = changes p l ++ changes (l.getLast?.getD p) m := by
  induction l generalizing p with
  | nil => rfl
  | cons x l ih =>
    rw [List.cons_append, changes, changes]
    have hl : ((x :: l).getLast?).getD p = l.getLast?.getD x := by
      cases l with
      | nil => rfl
      | cons y l => simp [List.getLast?_cons]
    split
    · rename_i h; rw [ih, hl, h]
    · rw [ih, hl]; rfl

/-- What is known of a component whose coroutine runs, `lv` being the last value of the signal that is a number. -/
structure Good (active : Bool) (s : Rst) (lv : Option Bool) : Prop where
  armed : s.armed = true
  state : s.state = (s.localReset || s.ext)
  ext : s.ext = (lv == some active)
  level : s.level ≠ none → lv = s.level

theorem Good.update {active : Bool} {s : Rst} {lv : Option Bool} (ha : s.armed = true) (he : s.ext = (lv == some active))
    (hl : s.level ≠ none → lv = s.level) : Good active s.update lv := by
  obtain ⟨u1, u2, u3, u4, u5⟩ := update_state s
  exact ⟨u5.trans ha, by rw [u1, u2, u3], by rw [u3, he], by rw [u4]; exact hl⟩

theorem Good.step {active : Bool} {s : Rst} {lv : Option Bool} (g : Good active s lv) (e : Ev) :
    Good active (step active s e) (lastLevel lv [e]) ∧
    (Verif.Reset.step active s e).localReset = (match e with
      | .call (some v) => v
      | .call none => false
      | _ => s.localReset) ∧
    (Verif.Reset.step active s e).calls = s.calls ++ changes s.state (demanded active s.localReset s.ext [e]) ∧
    (Verif.Reset.step active s e).state = (demanded active s.localReset s.ext [e]).getLast?.getD s.state ∧
    (∀ evs, demanded active s.localReset s.ext (e :: evs) = demanded active s.localReset s.ext [e] ++
      demanded active (Verif.Reset.step active s e).localReset (Verif.Reset.step active s e).ext evs) := by
  cases e with
  | start => exact ⟨⟨rfl, g.state, g.ext, g.level⟩, rfl, by simp [Verif.Reset.step, demanded, changes], rfl, fun _ => rfl⟩
  | call v =>
    cases v with
    | some v =>
      obtain ⟨u1, u2, u3, u4, u5⟩ := update_state ({ s with localReset := v } : Rst)
      have hst : Verif.Reset.step active s (.call (some v)) = ({ s with localReset := v } : Rst).update := rfl
      rw [hst]
      refine ⟨Good.update g.armed g.ext g.level, u2, update_calls _, by rw [u1]; rfl, fun evs => ?_⟩
      rw [u2, u3]; rfl
    | none =>
      obtain ⟨u1, u2, u3, u4, u5⟩ := update_state ({ s with localReset := true } : Rst)
      have hst : Verif.Reset.step active s (.call none) =
          ({ ({ s with localReset := true } : Rst).update with localReset := false } : Rst).update := rfl
      obtain ⟨v1, v2, v3, v4, v5⟩ := update_state ({ ({ s with localReset := true } : Rst).update with localReset := false } : Rst)
      rw [hst]
      refine ⟨Good.update (u5.trans g.armed) (u3.trans g.ext) (by rw [show Rst.level _ = s.level from u4]; exact g.level),
        v2, ?_, ?_, fun evs => ?_⟩
      · rw [update_calls]
        show (Rst.update _).calls ++ changes (Rst.update _).state [false || (Rst.update _).ext] = _
        rw [update_calls, u1, u3, List.append_assoc]
        congr 1
        exact (changes_append s.state [true || s.ext] [s.ext]).symm
      · rw [v1]; show (false || (Rst.update _).ext) = _; rw [u3]; rfl
      · rw [v2, v3]; show _ = _ ++ demanded active false (Rst.update _).ext evs; rw [u3]; rfl
  | drive v =>
    by_cases hv : v = s.level
    · have hst : Verif.Reset.step active s (.drive v) = s := by
        simp [Verif.Reset.step, hv]
      rw [hst]
      cases v with
      | none => exact ⟨g, rfl, by simp [demanded, changes], rfl, fun _ => rfl⟩
      | some b =>
        have hlv : lv = some b := by rw [hv]; exact g.level (by rw [← hv]; simp)
        have he : s.ext = (b == active) := by rw [g.ext, hlv]; rfl
        refine ⟨?_, rfl, ?_, ?_, fun evs => ?_⟩
        · have : lastLevel lv [Ev.drive (some b)] = lv := hlv.symm
          rw [this]; exact g
        · simp only [demanded, changes]; rw [if_pos (by rw [g.state, he]), List.append_nil]
        · simp only [demanded]; rw [g.state, he]; rfl
        · rw [he]; rfl
    · have hst : Verif.Reset.step active s (.drive v) = ({ s with level := v } : Rst).edge active := by
        simp [Verif.Reset.step, hv, g.armed]
      rw [hst]
      cases v with
      | none => exact ⟨⟨g.armed, g.state, g.ext, fun h => absurd rfl h⟩, rfl, by simp [Rst.edge, demanded, changes], rfl, fun _ => rfl⟩
      | some b =>
        have hed : ({ s with level := some b } : Rst).edge active = ({ s with level := some b, ext := b == active } : Rst).update := by
          cases b <;> cases active <;> rfl
        rw [hed]
        obtain ⟨u1, u2, u3, u4, u5⟩ := update_state ({ s with level := some b, ext := b == active } : Rst)
        refine ⟨Good.update g.armed ?_ (fun _ => rfl), u2, update_calls _, by rw [u1]; rfl, fun evs => ?_⟩
        · show (b == active) = (some b == some active); rfl
        · rw [u2, u3]; rfl

theorem Good.run {active : Bool} (evs : List Ev) : ∀ {s : Rst} {lv : Option Bool}, Good active s lv →
    Good active (evs.foldl (Verif.Reset.step active) s) (lastLevel lv evs) ∧
    (evs.foldl (Verif.Reset.step active) s).localReset = evs.foldl (fun b e => match e with
      | .call (some v) => v
      | .call none => false
      | _ => b) s.localReset ∧
    (evs.foldl (Verif.Reset.step active) s).calls = s.calls ++ changes s.state (demanded active s.localReset s.ext evs) ∧
    (evs.foldl (Verif.Reset.step active) s).state = (demanded active s.localReset s.ext evs).getLast?.getD s.state := by
  induction evs with
  | nil => exact fun g => ⟨g, rfl, by simp [demanded, changes], rfl⟩
  | cons e evs ih =>
    intro s lv g
    obtain ⟨g', h2, h3, h4, h5⟩ := g.step e
    obtain ⟨k1, k2, k3, k4⟩ := ih g'
    rw [List.foldl_cons]
    refine ⟨k1, ?_, ?_, ?_⟩
    · rw [k2, List.foldl_cons]
      congr 1
    · rw [k3, h3, h5 evs, changes_append, List.append_assoc, h4]
    · rw [k4, h5 evs, h4]
      rw [List.getLast?_append]
      cases (demanded active _ _ evs).getLast? <;> simp

theorem changes_mod (p : Bool) (l : List Bool) (i : Nat) (b : Bool) (h : (changes p l)[i]? = some b) :
    b = (p ^^ (i % 2 == 0)) := by
  induction l generalizing p i with
  | nil => simp [changes] at h
  | cons x l ih =>
    rw [changes] at h
    split at h
    · exact ih p i h
    · rename_i hx
      cases i with
      | zero => simp at h; subst h; cases x <;> cases p <;> simp_all
      | succ i =>
        have := ih x i (by simpa using h)
        rw [this]
        have h1 : x = !p := by cases x <;> cases p <;> simp_all
        rw [h1]
        have h2 : ((i + 1) % 2 == 0) = !(i % 2 == 0) := by
          rcases Nat.mod_two_eq_zero_or_one i with h | h
          · rw [show (i + 1) % 2 = 1 by omega, h]; rfl
          · rw [show (i + 1) % 2 = 0 by omega, h]; rfl
        rw [h2]; cases p <;> cases (i % 2 == 0) <;> rfl

/-- The state just after the constructor, once `_run_reset` awaits its first edge. -/
theorem good_start {active : Bool} {level : Option Bool} (hl : level ≠ some active) :
    Good active (exec active level [.start]) level :=
  ⟨rfl, rfl, by
    show false = _
    cases level with
    | none => rfl
    | some b => cases b <;> cases active <;> simp_all, fun _ => rfl⟩

/-- **C58**: with the reset signal not active at construction and the component's coroutine started before the signal
first changes, after any history of signal changes and `assert_reset` calls the component is in reset just if the last
`assert_reset` asserts it or the last number on the reset signal is the active level. -/
theorem C58_state (active : Bool) (level : Option Bool) (hl : level ≠ some active) (evs : List Ev) :
    (exec active level (.start :: evs)).state = (lastLocal evs || lastLevel level evs == some active) := by
  obtain ⟨g, h2, -, -⟩ := Good.run evs (good_start hl)
  have : exec active level (.start :: evs) = evs.foldl (Verif.Reset.step active) (exec active level [.start]) := rfl
  rw [this, g.state, h2, g.ext]; rfl

/-- **C58**: the reset handler is called once at construction, with `False`, and then exactly when the demanded reset changes, with
the new value. -/
theorem C58_calls (active : Bool) (level : Option Bool) (hl : level ≠ some active) (evs : List Ev) :
    (exec active level (.start :: evs)).calls = false :: changes false (demanded active false false evs) := by
  obtain ⟨-, -, h3, -⟩ := Good.run evs (good_start hl)
  exact h3

/-- **C58**: calls of the handler alternate, from `False`, and the last one is the present state: for every history, even one in
which the signal is active at construction or changes before the coroutine runs. -/
theorem C58_alternate (active : Bool) (level : Option Bool) (evs : List Ev) :
    (∀ i b, (exec active level evs).calls[i]? = some b → b = (i % 2 == 1)) ∧
    (exec active level evs).calls.getLast? = some (exec active level evs).state := by
  have hup : ∀ s : Rst, (∃ l, s.calls = false :: changes false l) ∧ s.calls.getLast? = some s.state →
      ∀ s' : Rst, s'.calls = s.calls → s'.state = s.state →
      (∃ l, s'.update.calls = false :: changes false l) ∧ s'.update.calls.getLast? = some s'.update.state := by
    intro s ⟨⟨l, h1⟩, h2⟩ s' hc hs
    unfold Rst.update
    simp only
    split
    · rename_i hne
      refine ⟨⟨l ++ [s'.localReset || s'.ext], ?_⟩, by simp⟩
      rw [changes_append, hc, h1, List.cons_append]
      congr 2
      have hlast : l.getLast?.getD false = s.state := by
        have : ∀ (p : Bool) (l : List Bool), (p :: changes p l).getLast? = some (l.getLast?.getD p) := by
          intro p l
          induction l generalizing p with
          | nil => rfl
          | cons x l ih =>
            have hx : ((x :: l).getLast?).getD p = l.getLast?.getD x := by
              cases l with
              | nil => rfl
              | cons y l => simp [List.getLast?_cons]
            rw [changes, hx]
            split
            · rename_i h; rw [h]; exact ih p
            · rw [List.getLast?_cons_cons]; exact ih x
        have h3 := this false l
        rw [← h1, h2] at h3
        exact (Option.some.inj h3).symm
      rw [hlast, changes, if_neg (by rw [← hs]; exact fun h => hne h.symm)]; rfl
    · exact ⟨⟨l, hc.trans h1⟩, by show s'.calls.getLast? = some s'.state; rw [hc, hs]; exact h2⟩
  have key : ∀ evs : List Ev, ∀ s : Rst, (∃ l, s.calls = false :: changes false l) ∧ s.calls.getLast? = some s.state →
      (∃ l, (evs.foldl (step active) s).calls = false :: changes false l) ∧
      (evs.foldl (step active) s).calls.getLast? = some (evs.foldl (step active) s).state := by
    intro evs
    induction evs with
    | nil => exact fun s h => h
    | cons e evs ih =>
      intro s h
      refine ih _ ?_
      cases e with
      | start => exact h
      | call v =>
        cases v with
        | some v => exact hup s h { s with localReset := v } rfl rfl
        | none => exact hup _ (hup s h { s with localReset := true } rfl rfl) _ rfl rfl
      | drive v =>
        simp only [step]
        split
        · unfold Rst.edge
          cases v with
          | none => exact h
          | some b => cases b <;> exact hup s h _ rfl rfl
        · exact h
  obtain ⟨⟨l, h1⟩, h2⟩ := key evs (Rst.init level) ⟨⟨[], rfl⟩, rfl⟩
  refine ⟨fun i b hb => ?_, h2⟩
  have hc : (exec active level evs).calls = false :: changes false l := h1
  rw [hc] at hb
  have : (changes true (false :: l))[i]? = some b := by rw [changes, if_neg (by decide)]; exact hb
  rw [changes_mod true _ i b this]
  rcases Nat.mod_two_eq_zero_or_one i with h | h <;> rw [h] <;> rfl

-- A history with everything in it: the signal goes active, `assert_reset(True)`, the signal goes to `x` and then inactive,
-- a pulse, and the local reset goes away.
example : (exec true (some false) [.start, .drive (some true), .call (some true), .drive none, .drive (some false), .call none,
    .call none]).calls = [false, true, false, true, false] := by decide
example : (exec false none [.start, .drive (some false), .drive (some true), .drive (some false)]).calls =
    [false, true, false, true] ∧
    (exec false none [.start, .drive (some false), .drive (some true), .drive (some false)]).state = true := by decide

/-- **C59**, what holds, for every history: the component is in reset just if the last `assert_reset` asserts it or the
last number that the signal changed to, since the component's coroutine started, is the active level. -/
theorem C59_partial (active : Bool) (level : Option Bool) (evs : List Ev) :
    (exec active level evs).state = (lastLocal evs || lastSeen false level none evs == some active) := by
  have key : ∀ (evs : List Ev) (s : Rst) (seen : Option Bool), s.state = (s.localReset || s.ext) → s.ext = (seen == some active) →
      (evs.foldl (step active) s).state = (evs.foldl (fun b e => match e with
        | .call (some v) => v
        | .call none => false
        | _ => b) s.localReset || lastSeen s.armed s.level seen evs == some active) := by
    intro evs
    induction evs with
    | nil => intro s seen h1 h2; rw [h2] at h1; exact h1
    | cons e evs ih =>
      intro s seen h1 h2
      rw [List.foldl_cons, List.foldl_cons]
      cases e with
      | start => exact ih { s with armed := true } seen h1 h2
      | call v =>
        cases v with
        | some v =>
          obtain ⟨u1, u2, u3, u4, u5⟩ := update_state ({ s with localReset := v } : Rst)
          have := ih ({ s with localReset := v } : Rst).update seen (by rw [u1, u2, u3]) (by rw [u3]; exact h2)
          rw [u2, u4, u5] at this
          exact this
        | none =>
          obtain ⟨u1, u2, u3, u4, u5⟩ := update_state ({ s with localReset := true } : Rst)
          obtain ⟨v1, v2, v3, v4, v5⟩ := update_state ({ ({ s with localReset := true } : Rst).update with localReset := false } : Rst)
          have := ih ({ ({ s with localReset := true } : Rst).update with localReset := false } : Rst).update seen
            (by rw [v1, v2, v3]) (by rw [v3]; exact u3.trans h2)
          rw [v2, v4, v5] at this
          rw [show Rst.level _ = s.level from u4, show Rst.armed _ = s.armed from u5] at this
          exact this
      | drive v =>
        by_cases hc : (s.armed && decide (v ≠ s.level)) = true
        · have hst : step active s (.drive v) = ({ s with level := v } : Rst).edge active := if_pos hc
          rw [hst]
          cases v with
          | none =>
            have := ih { s with level := none } seen h1 h2
            rw [lastSeen, if_pos hc]
            exact this
          | some b =>
            have hed : ({ s with level := some b } : Rst).edge active =
                ({ s with level := some b, ext := b == active } : Rst).update := by
              cases b <;> cases active <;> rfl
            rw [hed]
            obtain ⟨u1, u2, u3, u4, u5⟩ := update_state ({ s with level := some b, ext := b == active } : Rst)
            have := ih ({ s with level := some b, ext := b == active } : Rst).update (some b) (by rw [u1, u2, u3]) (by rw [u3]; rfl)
            rw [u2, u4, u5] at this
            rw [lastSeen, if_pos hc]
            exact this
        · have hst : step active s (.drive v) = { s with level := v } := if_neg hc
          rw [hst, lastSeen, if_neg hc]
          exact ih { s with level := v } seen h1 h2
  exact key evs (Rst.init level) none rfl rfl

/-- **C59** is false of the code: a component constructed while its reset signal is at the active level is running, and goes on
running, whatever happens, until the signal changes or `assert_reset` is called. -/
theorem C59_violated (active : Bool) : (exec active (some active) []).state = false ∧
    ∀ evs, (∀ e ∈ evs, e = .start ∨ e = .drive (some active)) → (exec active (some active) evs).state = false := by
  refine ⟨rfl, fun evs h => ?_⟩
  rw [C59_partial]
  have h1 : lastLocal evs = false := by
    have : ∀ (evs : List Ev) (b : Bool), (∀ e ∈ evs, e = .start ∨ e = .drive (some active)) → evs.foldl (fun b e => match e with
        | .call (some v) => v
        | .call none => false
        | _ => b) b = b := by
      intro evs
      induction evs with
      | nil => exact fun _ _ => rfl
      | cons e evs ih =>
        intro b h
        rw [List.foldl_cons]
        rcases h e (by simp) with rfl | rfl <;> exact ih b (fun e he => h e (by simp [he]))
    exact this evs false h
  have h2 : ∀ (evs : List Ev) (a : Bool), (∀ e ∈ evs, e = .start ∨ e = .drive (some active)) →
      lastSeen a (some active) none evs = none := by
    intro evs
    induction evs with
    | nil => exact fun _ _ => rfl
    | cons e evs ih =>
      intro a h
      rcases h e (by simp) with rfl | rfl
      · exact ih true (fun e he => h e (by simp [he]))
      · rw [lastSeen, if_neg (by simp)]
        exact ih a (fun e he => h e (by simp [he]))
  rw [h1, h2 evs false h]
  rfl

-- Constructed with the signal active: the component sees nothing until the signal has gone inactive and active again.
example : (exec true (some true) [.start, .drive (some true), .drive none, .drive (some false), .drive (some true)]).calls =
    [false, true] := by decide
-- A change before the coroutine runs is missed too.
example : (exec true (some false) [.drive (some true), .start]).state = false := by decide

end Verif.Reset
