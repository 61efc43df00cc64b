import Verif.Driver.CommandLine.Values
/-!
# The whole parse
-/
namespace Verif.CommandLine

/-- Every flag is a switch or has a default which is in order. -/
def Usable (f : Flag) : Prop := f.kind = .switch ∨ DefaultOk f

theorem settle_usable (cmd : Str) {f : Flag} (hu : Usable f) {said : List (Option Str)}
    (hs : ∀ v ∈ said, Sayable f v) :
    ∃ x, settle cmd f (said.foldl (stepVal f) .unset) = .ok x ∧ (DefaultOk f → finalValue f said = some x) ∧
      (f.kind = .switch → x = .num (if said = [] then 0 else 1)) := by
  by_cases hd : DefaultOk f
  · obtain ⟨x, h1, h2⟩ := settle_said cmd hd hs
    refine ⟨x, h1, fun _ => h2, fun hk => ?_⟩
    rw [settle_switch cmd hk hs] at h1
    exact (R.ok.inj h1).symm
  · have hk := hu.resolve_right hd
    exact ⟨_, settle_switch cmd hk hs, fun h => absurd h hd, fun _ => rfl⟩

/-- What the code does once it has read the arguments, for a command that compiles. -/
def finish (globals : List Flag) (cmd : Cmd) (first : Nat) (st : St) : R Done :=
  if st.vals 0 = .num 1 then .ok .version
  else if st.vals 1 = .num 1 then .ok (.help (if first = 1 then none else some cmd.name))
  else
    let own := (List.range cmd.flags.length).map (· + globals.length)
    (settleAll cmd.name (globals ++ cmd.flags) own st.vals).bind fun vals =>
      (settleAll cmd.name (globals ++ cmd.flags) (List.range globals.length) vals).bind fun vals =>
        if cmd.npos ≠ 0 then .ok (.help st.pos.head?) else .ok (.run cmd.name vals st.w st.arr)

theorem parse_eq {globals : List Flag} {cmds : List Cmd} {dflt cmd : Cmd} {argc first n : Nat} {arr : Nat → Str}
    (h : choose cmds dflt argc arr = (cmd, first, n)) :
    parse globals cmds dflt argc arr =
      (loop (globals ++ cmd.flags) cmd.npos (if cmd.name = arr (first - 1) then first - 1 else first) n first
        ⟨arr, fun _ => .unset, 0, []⟩).bind (finish globals cmd first) := by
  rw [parse, h]; rfl

theorem said_switch {flags : List Flag} {args : List Str} {es : List Event} {e : Ending} (h : Line flags args es e)
    {k : Nat} {f : Flag} (hf : flags[k]? = some f) (hk : f.kind = .switch) :
    after flags (fun _ => .unset) es k = (if saidOf k es = [] then .unset else .num 1) := by
  rw [after, flagAt_of hf]
  refine fold_switch f _ _ fun x hx => ?_
  rcases line_says h hf x hx with h | h
  · exact h.2
  · exact absurd hk h.1

theorem finish_fine {globals : List Flag} {cmd : Cmd} (hnp : cmd.npos = 0)
    (hu : ∀ f ∈ globals ++ cmd.flags, Usable f) {args : List Str} {es : List Event} {e : Ending}
    (hl : Line (globals ++ cmd.flags) args es e) (first : Nat) (arr : Nat → Str) (w : Nat) (pos : List Str)
    {v h : Flag} (h0 : (globals ++ cmd.flags)[0]? = some v) (h1 : (globals ++ cmd.flags)[1]? = some h)
    (hv : v.kind = .switch) (hh : h.kind = .switch) :
    (saidOf 0 es ≠ [] → finish globals cmd first ⟨arr, after (globals ++ cmd.flags) (fun _ => .unset) es, w, pos⟩ =
      .ok .version) ∧
    (saidOf 0 es = [] → saidOf 1 es ≠ [] →
      finish globals cmd first ⟨arr, after (globals ++ cmd.flags) (fun _ => .unset) es, w, pos⟩ =
        .ok (.help (if first = 1 then none else some cmd.name))) ∧
    (saidOf 0 es = [] → saidOf 1 es = [] → ∃ vals,
      finish globals cmd first ⟨arr, after (globals ++ cmd.flags) (fun _ => .unset) es, w, pos⟩ =
        .ok (.run cmd.name vals w arr) ∧
      ∀ k f, (globals ++ cmd.flags)[k]? = some f → (DefaultOk f → finalValue f (saidOf k es) = some (vals k)) ∧
        (f.kind = .switch → vals k = .num (if saidOf k es = [] then 0 else 1))) := by
  have e0 := said_switch hl h0 hv
  have e1 := said_switch hl h1 hh
  refine ⟨fun hs => ?_, fun hs hs1 => ?_, fun hs hs1 => ?_⟩
  · rw [if_neg hs] at e0
    simp only [finish, e0, if_true]
  · rw [if_pos hs] at e0
    rw [if_neg hs1] at e1
    simp only [finish, e0, e1, if_true]
    rfl
  · rw [if_pos hs] at e0
    rw [if_pos hs1] at e1
    have hset : ∀ k, ∃ x, k < (globals ++ cmd.flags).length →
        settle cmd.name (flagAt (globals ++ cmd.flags) k) (after (globals ++ cmd.flags) (fun _ => .unset) es k) = .ok x ∧
        (DefaultOk (flagAt (globals ++ cmd.flags) k) →
          finalValue (flagAt (globals ++ cmd.flags) k) (saidOf k es) = some x) ∧
        ((flagAt (globals ++ cmd.flags) k).kind = .switch → x = .num (if saidOf k es = [] then 0 else 1)) := by
      intro k
      by_cases hk : k < (globals ++ cmd.flags).length
      · have hf := List.getElem?_eq_getElem hk
        obtain ⟨x, hx⟩ := settle_usable cmd.name (hu _ (List.getElem_mem hk)) (line_says hl hf)
        refine ⟨x, fun _ => ?_⟩
        rw [after, flagAt_of hf]
        exact hx
      · exact ⟨.unset, fun h => absurd h hk⟩
    obtain ⟨g, hg⟩ := Classical.axiomOfChoice hset
    have hlen : (globals ++ cmd.flags).length = globals.length + cmd.flags.length := by simp
    refine ⟨fun k => if k ∈ List.range globals.length then g k
      else if k ∈ (List.range cmd.flags.length).map (· + globals.length) then g k
      else after (globals ++ cmd.flags) (fun _ => .unset) es k, ?_, ?_⟩
    · have hne : ¬ Val.unset = Val.num 1 := by simp
      simp only [finish, e0, e1, hne, if_false]
      rw [settleAll_ok cmd.name _ g]
      · simp only [R.bind]
        rw [settleAll_ok cmd.name _ g]
        · simp only [hnp]
          rw [if_neg (by simp)]
        · exact List.nodup_range
        · intro k hk
          have hk' := List.mem_range.1 hk
          rw [if_neg (by simp; omega)]
          exact (hg k (by omega)).1
      · exact List.pairwise_map.2 (List.Pairwise.imp (fun h e => h (Nat.add_right_cancel e)) List.nodup_range)
      · intro k hk
        obtain ⟨j, hj, rfl⟩ := List.mem_map.1 hk
        have hj' := List.mem_range.1 hj
        exact (hg _ (by omega)).1
    · intro k f hf
      obtain ⟨hk, hf'⟩ := List.getElem?_eq_some_iff.1 hf
      have := hg k hk
      rw [flagAt_of hf] at this
      have hval : (if k ∈ List.range globals.length then g k
          else if k ∈ (List.range cmd.flags.length).map (· + globals.length) then g k
          else after (globals ++ cmd.flags) (fun _ => .unset) es k) = g k := by
        by_cases h1 : k ∈ List.range globals.length
        · rw [if_pos h1]
        · rw [if_neg h1, if_pos]
          rw [List.mem_range] at h1
          exact List.mem_map.2 ⟨k - globals.length, List.mem_range.2 (by omega), by omega⟩
      simp only [hval]
      exact this.2

end Verif.CommandLine
