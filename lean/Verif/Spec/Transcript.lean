import Verif.Spec.Wire
import Verif.Spec.Schedule
/-
Independent specification of the transcript of a sequence of commits (RFC 9420 section 8.2).
-/
namespace Mls.Spec

/-- What a commit contributes to the transcript: the encoded ConfirmedTranscriptHashInput, and the confirmation tag. -/
abbrev TranscriptEntry := Bytes × Bytes

/-- The interim transcript hash after the commits, the latest first, starting with the interim hash `i`. -/
def interimAfter (hash : Bytes → Bytes) (i : Bytes) : List TranscriptEntry → Bytes
  | [] => i
  | (input, tag) :: l => hash (hash (interimAfter hash i l ++ input) ++ vec tag)

/-- The confirmed transcript hash after the commits, the latest first; `c` and `i` are the confirmed and interim hash at the start. -/
def confirmedAfter (hash : Bytes → Bytes) (c i : Bytes) : List TranscriptEntry → Bytes
  | [] => c
  | (input, _) :: l => hash (interimAfter hash i l ++ input)

/-- All that is hashed for the transcript of the commits. -/
def hashedInputs (hash : Bytes → Bytes) (i : Bytes) : List TranscriptEntry → List Bytes
  | [] => []
  | (input, tag) :: l => (hash (interimAfter hash i l ++ input) ++ vec tag) :: (interimAfter hash i l ++ input) ::
      hashedInputs hash i l

end Mls.Spec
