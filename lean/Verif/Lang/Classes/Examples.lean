import Verif.Lang.Classes.Virtual
import Verif.Lang.Classes.Layout
/-!
# Classes of the kind that the standard library declares

`OutputStream` with a virtual `append` (0), `BufferedOutputStream` with a virtual `flush` (1) and its own `append`, and
`BufferedSocketOutputStream` with its own `flush`, as in `runtime/builtins.cxy` and `stdlib/net.cxy`.
-/
namespace Verif.Classes

def stream : Decl := ⟨10, [], [⟨0, 5, true, false⟩]⟩
def buffered : Decl := ⟨11, [1, 2], [⟨1, 6, true, true⟩, ⟨0, 5, false, true⟩]⟩
def socket : Decl := ⟨12, [3], [⟨1, 6, false, true⟩]⟩
def late : Decl := ⟨13, [4], [⟨2, 7, false, true⟩]⟩

theorem socket_plain : Plain [socket, buffered, stream] := by unfold Plain; decide

theorem socket_one (n s : Nat) (h : (n = 0 ∧ s = 5) ∨ (n = 1 ∧ s = 6)) : OneSignature [socket, buffered, stream] n s := by
  rcases h with ⟨rfl, rfl⟩ | ⟨rfl, rfl⟩ <;> unfold OneSignature <;> decide

/-- `virtual_call_partial`: `append` on an `OutputStream` that is a socket's. -/
example : call [stream] [socket, buffered, stream] 0 = some (.runs ⟨11, ⟨0, 5, false, true⟩⟩) :=
  virtual_call_partial ⟨[socket, buffered], rfl⟩ socket_plain (socket_one 0 5 (.inl ⟨rfl, rfl⟩))
    (Means.here (d := stream) (m := ⟨0, 5, true, false⟩) (by simp [stream])) rfl rfl
    (Means.above (d := socket) (by simp [socket])
      (Means.here (d := buffered) (m := ⟨0, 5, false, true⟩) (by simp [buffered]))) rfl

/-- `virtual_call_partial`: `flush` on a buffered stream that is a socket's. -/
example : call [buffered, stream] [socket, buffered, stream] 1 = some (.runs ⟨12, ⟨1, 6, false, true⟩⟩) :=
  virtual_call_partial ⟨[socket], rfl⟩ socket_plain (socket_one 1 6 (.inr ⟨rfl, rfl⟩))
    (Means.here (d := buffered) (m := ⟨1, 6, true, true⟩) (by simp [buffered])) rfl rfl
    (Means.here (d := socket) (m := ⟨1, 6, false, true⟩) (by simp [socket])) rfl

/-- `third_class_has_no_table`: one more class below the socket's. -/
example : call [buffered, stream] [late, socket, buffered, stream] 1 = some .bad :=
  (third_class_has_no_table late socket [] [stream] (d := buffered) (m := ⟨1, 6, true, true⟩) rfl rfl
    (plain_of_derived ⟨[socket], rfl⟩ socket_plain) (by simp [buffered]) rfl).2

/-- `plain_call`, `unmarked_override_is_final`: `flush` on an expression of the socket's class, whatever the object is. -/
example : call [socket, buffered, stream] [late, socket, buffered, stream] 1 = some (.runs ⟨12, ⟨1, 6, false, true⟩⟩) :=
  plain_call _ socket_plain (socket_one 1 6 (.inr ⟨rfl, rfl⟩))
    (Means.here (d := socket) (m := ⟨1, 6, false, true⟩) (by simp [socket])) rfl

def root : Decl := ⟨20, [7], [⟨0, 5, true, true⟩]⟩
def middle : Decl := ⟨21, [8], [⟨0, 5, false, true⟩, ⟨3, 9, true, true⟩]⟩
def leaf : Decl := ⟨22, [9], [⟨0, 5, false, true⟩]⟩
def twisted : Decl := ⟨23, [], [⟨0, 6, false, true⟩]⟩

theorem leaf_plain : Plain [leaf, middle, root] := by unfold Plain; decide

/-- `unmarked_override_is_final`: a leaf seen as a middle one. -/
example : call [middle, root] [leaf, middle, root] 0 = some (.runs ⟨21, ⟨0, 5, false, true⟩⟩) :=
  (unmarked_override_is_final (c := leaf) (b := middle) (a := root) (x := ⟨0, 5, false, true⟩) (y := ⟨0, 5, false, true⟩)
    (z := ⟨0, 5, true, true⟩) _ (by simp [leaf]) (by simp [middle]) (by simp [root]) rfl rfl rfl rfl rfl rfl rfl
    (by decide) leaf_plain rfl).1

/-- `other_parameters_take_the_place` -/
example : call [root] [twisted, root] 0 = some .bad :=
  (other_parameters_take_the_place (d := twisted) (a := root) (x := ⟨0, 6, false, true⟩) (z := ⟨0, 5, true, true⟩)
    (by simp [twisted]) (by simp [root]) rfl (by decide) rfl (by unfold Plain; decide)).2

/-- `super_calls_itself` -/
example : callSuper [middle, root] [middle, root] 0 = some (.runs ⟨21, ⟨0, 5, false, true⟩⟩) :=
  (super_calls_itself (d := middle) (b := root) (as := []) (x := ⟨0, 5, false, true⟩) (z := ⟨0, 5, true, true⟩)
    (by simp [middle]) (by simp [root]) rfl rfl rfl rfl (plain_of_derived ⟨[leaf], rfl⟩ leaf_plain)
    (by unfold OneSignature; decide)).2

/-- `super_call_partial`: `super` in the leaf's function, for the function of the middle class that is not marked. -/
example : callSuper [leaf, middle, root] [leaf, middle, root] 0 = some (.runs ⟨21, ⟨0, 5, false, true⟩⟩) :=
  super_call_partial _ (plain_of_derived ⟨[leaf], rfl⟩ leaf_plain)
    (s := 5) (by unfold OneSignature; decide)
    (Means.here (d := middle) (m := ⟨0, 5, false, true⟩) (by simp [middle])) rfl

/-- `base_first_partial`: a socket's stream begins like a buffered one. -/
example : Keeps [socket, buffered, stream] [buffered, stream] :=
  base_first_partial ⟨[socket], rfl⟩ rfl (by simp [stream])

example : layout [socket, buffered, stream] = [.vtable, .field 11 1, .field 11 2, .field 12 3] := rfl

/-- `first_virtual_moves_the_fields` -/
example : ¬ Keeps [stream, late] [late] :=
  first_virtual_moves_the_fields rfl (by simp [late]) rfl (by simp [Distinct])

/-- `third_class_moves_the_fields`, `base_first_iff` -/
example : ¬ Keeps [leaf, middle, root] [middle, root] :=
  third_class_moves_the_fields (by simp [middle]) ⟨root, by simp, by simp [root]⟩ (by simp [Distinct, middle, root])

/-- `root_fields_double` -/
example : (layout [leaf, middle, root]).count (.field 20 7) = 2 :=
  root_fields_double leaf root [middle] 7 (by simp [leaf, middle, root])

end Verif.Classes
