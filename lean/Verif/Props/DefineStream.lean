import Verif.Model.DefineStream

/-!
# C61, C87: stream types made by `define_stream`
-/

namespace Verif.DefineStream

/-! ## Specification -/

/-- The name ends in `suffix`, in small or capital letters. -/
def Ends (suffix s : Str) : Prop := ∃ p q : Str, s = p ++ q ∧ q.map Char.toLower = suffix

/-- `s` is the last name of the list that ends in `suffix`. -/
def LastEnding (suffix : Str) (l : List Str) (s : Str) : Prop :=
  ∃ before after, l = before ++ s :: after ∧ Ends suffix s ∧ ∀ t ∈ after, ¬ Ends suffix t

/-! ## Proofs -/

theorem endsWith_iff (suffix s : Str) : endsWith suffix s = true ↔ Ends suffix s := by
  unfold endsWith Ends
  rw [List.isSuffixOf_iff_suffix]
  constructor
  · rintro ⟨p, hp⟩
    refine ⟨s.take p.length, s.drop p.length, (List.take_append_drop _ _).symm, ?_⟩
    rw [List.map_drop, ← hp, List.drop_left]
  · rintro ⟨p, q, rfl, hq⟩
    exact ⟨p.map Char.toLower, by rw [← hq, List.map_append]⟩

theorem detect_append (suffix : Str) (l : List Str) (s : Str) :
    detect suffix (l ++ [s]) = if endsWith suffix s then some s else detect suffix l := by
  unfold detect; rw [List.foldl_append]; rfl

theorem detect_spec (suffix : Str) (l : List Str) :
    (∀ s, detect suffix l = some s → LastEnding suffix l s) ∧ (detect suffix l = none → ∀ t ∈ l, ¬ Ends suffix t) := by
  have key : ∀ (n : Nat) (l : List Str), l.length = n →
      (∀ s, detect suffix l = some s → LastEnding suffix l s) ∧ (detect suffix l = none → ∀ t ∈ l, ¬ Ends suffix t) := by
    intro n
    induction n with
    | zero =>
      intro l hl
      have : l = [] := List.length_eq_zero_iff.1 hl
      subst this
      exact ⟨fun s hs => (by cases hs), fun _ t ht => (by cases ht)⟩
    | succ n ih =>
      intro l hl
      have hne : l ≠ [] := by intro h; rw [h] at hl; cases hl
      obtain ⟨m, x, rfl⟩ : ∃ m x, l = m ++ [x] := ⟨l.dropLast, l.getLast hne, (List.dropLast_concat_getLast hne).symm⟩
      obtain ⟨i1, i2⟩ := ih m (by simpa using hl)
      rw [detect_append]
      by_cases hx : endsWith suffix x = true
      · rw [if_pos hx]
        refine ⟨fun s hs => ?_, fun h => by cases h⟩
        cases hs
        exact ⟨m, [], rfl, (endsWith_iff _ _).1 hx, fun t ht => by cases ht⟩
      · rw [if_neg hx]
        have hx' : ¬ Ends suffix x := fun h => hx ((endsWith_iff _ _).2 h)
        refine ⟨fun s hs => ?_, fun h t ht => ?_⟩
        · obtain ⟨b, a, h1, h2, h3⟩ := i1 s hs
          refine ⟨b, a ++ [x], by rw [h1]; simp, h2, fun t ht => ?_⟩
          rcases List.mem_append.1 ht with h | h
          · exact h3 t h
          · simp at h; subst h; exact hx'
        · rcases List.mem_append.1 ht with h' | h'
          · exact i2 h t h'
          · simp at h'; subst h'; exact hx'
  exact key _ l rfl

/-- What `define_stream` gives, when it gives something. -/
theorem define_ok {signals : List Str} {opt : Option (List Str)} {v r : Option Str} {w : Option Widths} {st : Stream}
    (h : defineStream signals opt v r w = .ok st) :
    (match (generalizing := false) v with | some v => some v | none => detect "valid".toList (signals ++ opt.getD [])) = some st.valid ∧
    st.ready = (match (generalizing := false) r with | some r => some r | none => detect "ready".toList (signals ++ opt.getD [])) ∧
    st.fields = (signals ++ opt.getD []).filter (fun s => !(some s == st.ready || s == st.valid)) ∧
    st.optional = opt.getD [] ∧
    st.widths = setDefault (setDefault (w.getD []) (some st.valid)) st.ready ∧
    st.signals = (let s1 := if st.valid ∈ signals ++ opt.getD [] then signals else extend signals st.valid
      match (generalizing := false) r with
      | none => s1
      | some r => if r ∈ signals ++ opt.getD [] then s1 else extend s1 r) := by
  unfold defineStream at h
  simp only at h
  split at h
  · cases h
  · rename_i v' hv
    cases r with
    | none =>
      simp only at h
      injection h with h
      subst h
      exact ⟨hv, rfl, rfl, rfl, rfl, rfl⟩
    | some r =>
      simp only at h
      injection h with h
      subst h
      exact ⟨hv, rfl, rfl, rfl, rfl, rfl⟩

/-- **C61**: `define_stream` fails just if no valid signal is named and none of the signals' names ends in "valid". -/
theorem C61_error_iff (signals : List Str) (opt : Option (List Str)) (v r : Option Str) (w : Option Widths) :
    (∃ e, defineStream signals opt v r w = .error e) ↔ v = none ∧ ∀ s ∈ signals ++ opt.getD [], ¬ Ends "valid".toList s := by
  unfold defineStream
  simp only
  cases v with
  | some v =>
    constructor
    · rintro ⟨e, he⟩
      cases r <;> cases he
    · rintro ⟨h, -⟩; cases h
  | none =>
    simp only [true_and]
    cases hd : detect "valid".toList (signals ++ opt.getD []) with
    | none => exact ⟨fun _ => (detect_spec _ _).2 hd, fun _ => ⟨_, rfl⟩⟩
    | some v =>
      obtain ⟨b, a, h1, h2, h3⟩ := (detect_spec _ _).1 v hd
      constructor
      · rintro ⟨e, he⟩
        cases r <;> cases he
      · intro hall
        exact absurd h2 (hall v (by rw [h1]; simp))

/-- **C61**: the fields of a transaction are the signals and optional signals without the valid and the ready signal, in
order. -/
theorem C61_fields {signals : List Str} {opt : Option (List Str)} {v r : Option Str} {w : Option Widths} {st : Stream}
    (h : defineStream signals opt v r w = .ok st) :
    st.fields = (signals ++ opt.getD []).filter (fun s => decide (s ≠ st.valid ∧ some s ≠ st.ready)) ∧
    st.optional = opt.getD [] := by
  obtain ⟨-, -, h3, h4, -⟩ := define_ok h
  refine ⟨?_, h4⟩
  rw [h3]
  apply List.filter_congr
  intro s _
  by_cases h1 : s = st.valid <;> by_cases h2 : some s = st.ready <;> simp [h1, h2]

/-- **C61**: the valid and ready signals are those named by the caller; else the last whose name ends in "valid" and in "ready";
there is no ready signal just if there is no such name. -/
theorem C61_handshake {signals : List Str} {opt : Option (List Str)} {v r : Option Str} {w : Option Widths} {st : Stream}
    (h : defineStream signals opt v r w = .ok st) :
    (∀ x, v = some x → st.valid = x) ∧
    (v = none → LastEnding "valid".toList (signals ++ opt.getD []) st.valid) ∧
    (∀ x, r = some x → st.ready = some x) ∧
    (r = none → match st.ready with
      | some x => LastEnding "ready".toList (signals ++ opt.getD []) x
      | none => ∀ s ∈ signals ++ opt.getD [], ¬ Ends "ready".toList s) := by
  obtain ⟨h1, h2, -⟩ := define_ok h
  refine ⟨fun x hx => ?_, fun hv => ?_, fun x hx => ?_, fun hr => ?_⟩
  · subst hx; exact (Option.some.inj h1).symm
  · subst hv; exact (detect_spec _ _).1 _ h1
  · subst hx; exact h2
  · subst hr
    simp only at h2
    cases hst : st.ready with
    | none => exact (detect_spec _ _).2 (h2.symm.trans hst)
    | some x => exact (detect_spec _ _).1 _ (h2.symm.trans hst)

/-- **C61**, what holds of the required signals of the bus: they are the given ones, if the named valid and ready signals (if any)
are among the given and optional ones. -/
theorem C61_signals_partial {signals : List Str} {opt : Option (List Str)} {v r : Option Str} {w : Option Widths} {st : Stream}
    (h : defineStream signals opt v r w = .ok st) (hv : ∀ x, v = some x → x ∈ signals ++ opt.getD [])
    (hr : ∀ x, r = some x → x ∈ signals ++ opt.getD []) : st.signals = signals := by
  obtain ⟨h1, -, -, -, -, h6⟩ := define_ok h
  have hmem : st.valid ∈ signals ++ opt.getD [] := by
    cases v with
    | some x => rw [show x = st.valid from Option.some.inj h1] at hv; exact hv _ rfl
    | none =>
      obtain ⟨b, a, h2, -⟩ := (detect_spec _ _).1 _ h1
      rw [h2]; simp
  rw [h6]
  simp only [if_pos hmem]
  cases r with
  | none => rfl
  | some r => simp only; rw [if_pos (hr r rfl)]

theorem lookup_setDefault (d : Widths) (k k' : Option Str) :
    (setDefault d k).lookup k' = match d.lookup k' with
      | some n => some n
      | none => if k' = k then some 1 else none := by
  unfold setDefault
  cases hk : d.lookup k with
  | some n =>
    simp only
    cases hk' : d.lookup k' with
    | some m => rfl
    | none =>
      simp only
      rw [if_neg]
      intro he; subst he; rw [hk] at hk'; cases hk'
  | none =>
    simp only
    have : ∀ d : Widths, (d ++ [(k, 1)]).lookup k' = match d.lookup k' with
        | some n => some n
        | none => if k' = k then some 1 else none := by
      intro d
      induction d with
      | nil =>
        simp only [List.nil_append, List.lookup]
        by_cases he : k' = k
        · subst he; simp
        · rw [if_neg he]
          have : (k' == k) = false := by simpa using he
          rw [this]
      | cons x d ih =>
        obtain ⟨a, n⟩ := x
        rw [List.cons_append, List.lookup, List.lookup]
        cases hx : (k' == a) with
        | true => rfl
        | false => exact ih
    exact this d

/-- **C61**: the widths are the given ones, and 1 for the valid and ready signal if no other width is given. -/
theorem C61_widths {signals : List Str} {opt : Option (List Str)} {v r : Option Str} {w : Option Widths} {st : Stream}
    (h : defineStream signals opt v r w = .ok st) (s : Str) :
    st.widths.lookup (some s) = match (w.getD []).lookup (some s) with
      | some n => some n
      | none => if s = st.valid ∨ some s = st.ready then some 1 else none := by
  obtain ⟨-, -, -, -, h5, -⟩ := define_ok h
  rw [h5, lookup_setDefault, lookup_setDefault]
  cases (w.getD []).lookup (some s) with
  | some n => rfl
  | none =>
    simp only [Option.some.injEq]
    by_cases h1 : s = st.valid
    · simp [h1]
    · by_cases h2 : some s = st.ready <;> simp [h1, h2]

def str (s : String) : Str := s.toList

/-- The signals of a design with the given names, each of one bit. -/
def design (names : List String) : Str → Option Nat := fun s => if s ∈ names.map str then some 1 else none

/-- **C61** is false of the code for a valid signal that is named but not listed: instead of its name, the letters of its name
are required signals, so the component cannot be attached to a design that has all the signals. The same goes for a ready signal. -/
theorem C61_violated :
    (∃ st, defineStream [str "data", str "ready"] none (some (str "valid")) none none = .ok st ∧
      st.signals = [str "data", str "ready", str "v", str "a", str "l", str "i", str "d"] ∧
      bind st (design ["data", "valid", "ready"]) = .error .attributeError) ∧
    (∃ st, defineStream [str "data", str "valid"] none none (some (str "rdy")) none = .ok st ∧
      st.signals = [str "data", str "valid", str "r", str "d", str "y"] ∧
      bind st (design ["data", "valid", "rdy"]) = .error .attributeError) :=
  ⟨⟨_, rfl, by decide +kernel, by decide +kernel⟩, ⟨_, rfl, by decide +kernel, by decide +kernel⟩⟩

-- A definition with everything in it: two names end in "valid".
example : defineStream [str "d", str "xValid", str "S_VALID", str "b_Ready"] (some [str "user"]) none none (some [(some (str "d"), 8)]) = .ok
    { signals := [str "d", str "xValid", str "S_VALID", str "b_Ready"], optional := [str "user"],
      widths := [(some (str "d"), 8), (some (str "S_VALID"), 1), (some (str "b_Ready"), 1)], ready := some (str "b_Ready"),
      valid := str "S_VALID", fields := [str "d", str "xValid", str "user"] } := by decide +kernel
-- The AXI write address channel (axi_channels.py 28-33).
example : (defineStream (["awid", "awaddr", "awlen", "awsize", "awburst", "awvalid", "awready"].map str)
    (some (["awlock", "awcache", "awprot", "awqos", "awregion", "awuser"].map str))).map (fun st => (st.valid, st.ready, st.fields)) =
    .ok (str "awvalid", some (str "awready"), ["awid", "awaddr", "awlen", "awsize", "awburst", "awlock", "awcache", "awprot",
      "awqos", "awregion", "awuser"].map str) := by decide +kernel
example : defineStream [str "data"] = .error .typeError := by decide +kernel

/-- **C61**: a transaction has exactly its fields, each with the value given for it, or 0; it cannot be made just if a value is given
for something that is not a field. -/
theorem C61_transaction (fields : List Str) (kwargs : List (Str × Int)) :
    ((∃ e, transaction fields kwargs = .error e) ↔ ∃ k ∈ kwargs, k.1 ∉ fields) ∧
    ∀ obj, transaction fields kwargs = .ok obj →
      obj.map Prod.fst = fields ∧ ∀ f x, (f, x) ∈ obj → x = (kwargs.lookup f).getD 0 := by
  unfold transaction
  simp only
  by_cases h : kwargs.all (fun kv => decide (kv.1 ∈ fields)) = true
  · rw [if_pos h]
    rw [List.all_eq_true] at h
    refine ⟨⟨fun ⟨e, he⟩ => (by cases he), fun ⟨k, hk, hn⟩ => absurd (by simpa using h k hk) hn⟩, fun obj ho => ?_⟩
    injection ho with ho
    subst ho
    refine ⟨by rw [List.map_map]; simp [Function.comp_def], fun f x hx => ?_⟩
    obtain ⟨g, -, hg⟩ := List.mem_map.1 hx
    cases hg; rfl
  · rw [if_neg h]
    refine ⟨⟨fun _ => ?_, fun _ => ⟨_, rfl⟩⟩, fun obj ho => by cases ho⟩
    rw [List.all_eq_true] at h
    simp only [Classical.not_forall] at h
    obtain ⟨k, hk, hn⟩ := h
    exact ⟨k, hk, by simpa using hn⟩

example : transaction [str "awid", str "awaddr"] [(str "awaddr", 64)] = .ok [(str "awid", 0), (str "awaddr", 64)] ∧
    transaction [str "awid", str "awaddr"] [(str "addr", 64)] = .error .typeError := by decide +kernel

/-- **C87**: a component made by `define_stream` can be attached to a design just if the design has all the required signals and
every signal of known width that it has, required or optional, has that width. -/
theorem C87_attach (st : Stream) (bus : Str → Option Nat) :
    (∃ b, bind st bus = .ok b) ↔
      (∀ s ∈ st.signals, bus s ≠ none) ∧
      (∀ s ∈ st.signals ++ st.optional, ∀ n w, bus s = some n → st.widths.lookup (some s) = some w → n = w) := by
  unfold bind
  by_cases h1 : st.signals.any (fun s => (bus s).isNone) = true
  · rw [if_pos h1]
    constructor
    · rintro ⟨b, hb⟩; cases hb
    · rintro ⟨hs, -⟩
      obtain ⟨s, hs1, hs2⟩ := List.any_eq_true.1 h1
      exact absurd (by simpa using hs2) (hs s hs1)
  · rw [if_neg h1]
    have hs : ∀ s ∈ st.signals, bus s ≠ none := by
      intro s hs hn
      exact h1 (List.any_eq_true.2 ⟨s, hs, by simp [hn]⟩)
    split
    · rename_i h2
      rw [List.all_eq_true] at h2
      refine ⟨fun _ => ⟨hs, fun s hs n w hn hw => ?_⟩, fun _ => ⟨_, rfl⟩⟩
      have := h2 s hs
      rw [hn] at this
      simp only [hw] at this
      simpa using this
    · rename_i h2
      refine ⟨fun h => (by obtain ⟨b, hb⟩ := h; cases hb), fun ⟨_, hw⟩ => absurd ?_ h2⟩
      rw [List.all_eq_true]
      intro s hs
      cases hn : bus s with
      | none => rfl
      | some n =>
        simp only
        cases hl : st.widths.lookup (some s) with
        | none => rfl
        | some w => simpa using hw s hs n w hn hl

/-- **C87**: and then it uses the valid and the ready signal just if the design has them. -/
theorem C87_bound (st : Stream) (bus : Str → Option Nat) (b : Bound) (h : bind st bus = .ok b) :
    (b.valid = true ↔ bus st.valid ≠ none) ∧ (b.ready = true ↔ ∃ r, st.ready = some r ∧ bus r ≠ none) := by
  unfold bind at h
  split at h
  · cases h
  · split at h
    · injection h with h
      subst h
      refine ⟨by cases bus st.valid <;> simp, ?_⟩
      cases st.ready with
      | none => simp
      | some r => simp [Option.isSome_iff_ne_none]
    · cases h

-- The valid signal of a stream must have one bit; another signal may have any width, and an optional one may be missing.
example : (defineStream [str "data", str "valid", str "ready"] (some [str "user"])).map (fun st =>
    (bind st (fun s => if s = str "data" then some 8 else if s = str "user" then none else some 1),
     bind st (fun s => if s = str "data" then some 8 else some 2),
     bind st (fun s => if s = str "ready" then none else some 1))) =
    .ok (.ok ⟨true, true⟩, .error .assertionError, .error .attributeError) := by decide +kernel

theorem setDefault_same (d : Widths) (k : Option Str) : setDefault d k = d ↔ d.lookup k ≠ none := by
  unfold setDefault
  cases h : d.lookup k with
  | some w => simp
  | none =>
    simp only [ne_eq, not_true_eq_false, iff_false]
    intro hc
    have := congrArg List.length hc
    simp at this

theorem setDefault_two (d : Widths) (k k' : Option Str) : setDefault (setDefault d k) k' = d ↔ d.lookup k ≠ none ∧ d.lookup k' ≠ none := by
  constructor
  · intro h
    have hlen : ∀ (d : Widths) k, d.length ≤ (setDefault d k).length := by
      intro d k; unfold setDefault; split <;> simp
    have h1 : setDefault d k = d := by
      cases hk : d.lookup k with
      | some w => simp [setDefault, hk]
      | none =>
        have e : (setDefault d k).length = d.length + 1 := by simp [setDefault, hk]
        have := hlen (setDefault d k) k'
        rw [h] at this
        omega
    rw [h1] at h
    exact ⟨(setDefault_same d k).1 h1, (setDefault_same d k').1 h⟩
  · rintro ⟨h1, h2⟩
    rw [(setDefault_same d k).2 h1, (setDefault_same d k').2 h2]

/-- **C131**, the part that holds: `define_stream` leaves the caller's list of signals as it is if the valid and ready signals it is told are in the
lists, and the caller's dict of widths exactly if the valid and ready signals (`None` if there is no ready signal) have a width in it. -/
theorem C131_arguments_partial {signals : List Str} {opt : Option (List Str)} {v r : Option Str} {w : Option Widths} {st : Stream}
    (h : defineStream signals opt v r w = .ok st) :
    ((∀ x, v = some x → x ∈ signals ++ opt.getD []) → (∀ x, r = some x → x ∈ signals ++ opt.getD []) → (argsAfter signals opt v r w).1 = signals) ∧
    (∀ d, w = some d → ((argsAfter signals opt v r w).2 = some d ↔ d.lookup (some st.valid) ≠ none ∧ d.lookup st.ready ≠ none)) ∧
    (w = none → (argsAfter signals opt v r w).2 = none) := by
  refine ⟨fun hv hr => ?_, fun d hd => ?_, fun hw => ?_⟩
  · simp only [argsAfter, h]; exact C61_signals_partial h hv hr
  · obtain ⟨-, -, -, -, h5, -⟩ := define_ok h
    simp only [argsAfter, h]
    rw [hd, Option.map_some, Option.some.injEq, h5, hd, Option.getD_some]
    exact setDefault_two _ _ _
  · subst hw; simp [argsAfter, h]

/-- **C131 is false of the code**: a dict of widths that two definitions share. The first definition leaves the width of its ready signal in
it; the second stream has a data signal of that name with eight bits, and cannot be attached to its design, which it could without the first
definition. -/
theorem C131_violated :
    let shared : Widths := [(some (str "data"), 8)]
    let after := (argsAfter [str "data", str "valid", str "ready"] none none (some (str "ready")) (some shared)).2
    let second := fun w => defineStream [str "data", str "valid", str "ready", str "go"] none none (some (str "go")) w
    let bus : Str → Option Nat := fun s => if s = str "data" ∨ s = str "ready" then some 8 else if s = str "valid" ∨ s = str "go" then some 1 else none
    (∃ st, second (some shared) = .ok st ∧ ∃ b, bind st bus = .ok b) ∧ ∃ st, second after = .ok st ∧ bind st bus = .error .assertionError :=
  ⟨⟨_, rfl, ⟨true, true⟩, by decide +kernel⟩, ⟨_, rfl, by decide +kernel⟩⟩

example : ∃ st, defineStream [str "data", str "valid"] none none none (some [(some (str "valid"), 1), (none, 1)]) = .ok st ∧
    st.ready = none ∧ st.valid = str "valid" := ⟨_, rfl, by decide +kernel, by decide +kernel⟩

end Verif.DefineStream
