import Verif.Basic

/-!
# Model of the integer writers of `msgfmt/jsonfmt/encoder_int.go`

`space []byte` is a list; `append` is `++`.  Fixed width integers are Lean's
`UIntN`/`IntN`, with the same wrap-around arithmetic as Go.
-/

namespace Verif.Jsonfmt

/-- `digits[i]`, msgfmt/jsonfmt/encoder_int.go:8-20.  The 1000-entry table is
modelled as the function that fills it (only indices below 1000 are used; the
index panic for other indices is not modelled, all call sites index below 1000). -/
def digits (i : UInt32) : UInt32 :=
  let d := (((i / 100) + 48) <<< 16) + ((((i / 10) % 10) + 48) <<< 8) + i % 10 + 48
  if i < 10 then d + ((2 : UInt32) <<< 24)
  else if i < 100 then d + ((1 : UInt32) <<< 24)
  else d

/-- `writeFirstBuf`, msgfmt/jsonfmt/encoder_int.go:217-226. -/
def writeFirstBuf (space : Bytes) (v : UInt32) : Bytes :=
  let start := v >>> 24
  let space :=
    if start = 0 then space ++ [(v >>> 16).toUInt8, (v >>> 8).toUInt8]
    else if start = 1 then space ++ [(v >>> 8).toUInt8]
    else space
  space ++ [v.toUInt8]

/-- `writeBuf`, msgfmt/jsonfmt/encoder_int.go:228-230. -/
def writeBuf (space : Bytes) (v : UInt32) : Bytes :=
  space ++ [(v >>> 16).toUInt8, (v >>> 8).toUInt8, v.toUInt8]

/-- `WriteUint8`, msgfmt/jsonfmt/encoder_int.go:78-80. -/
def writeUint8 (space : Bytes) (val : UInt8) : Bytes :=
  writeFirstBuf space (digits val.toUInt32)

/-- `WriteInt8`, msgfmt/jsonfmt/encoder_int.go:82-91. -/
def writeInt8 (space : Bytes) (nval : Int8) : Bytes :=
  if nval < 0 then
    writeFirstBuf (space ++ [45]) (digits (-nval).toUInt8.toUInt32)
  else
    writeFirstBuf space (digits nval.toUInt8.toUInt32)

/-- `WriteUint16`, msgfmt/jsonfmt/encoder_int.go:104-112. -/
def writeUint16 (space : Bytes) (val : UInt16) : Bytes :=
  let q1 := val / 1000
  if q1 = 0 then writeFirstBuf space (digits val.toUInt32)
  else
    let r1 := val - q1 * 1000
    let space := writeFirstBuf space (digits q1.toUInt32)
    writeBuf space (digits r1.toUInt32)

/-- `WriteInt16`, msgfmt/jsonfmt/encoder_int.go:93-102. -/
def writeInt16 (space : Bytes) (nval : Int16) : Bytes :=
  if nval < 0 then writeUint16 (space ++ [45]) (-nval).toUInt16
  else writeUint16 space nval.toUInt16

/-- `WriteUint32`, msgfmt/jsonfmt/encoder_int.go:125-147. -/
def writeUint32 (space : Bytes) (val : UInt32) : Bytes :=
  let q1 := val / 1000
  if q1 = 0 then writeFirstBuf space (digits val)
  else
    let r1 := val - q1 * 1000
    let q2 := q1 / 1000
    if q2 = 0 then
      let space := writeFirstBuf space (digits q1)
      writeBuf space (digits r1)
    else
      let r2 := q1 - q2 * 1000
      let q3 := q2 / 1000
      if q3 = 0 then
        let space := writeFirstBuf space (digits q2)
        let space := writeBuf space (digits r2)
        writeBuf space (digits r1)
      else
        let r3 := q2 - q3 * 1000
        let space := space ++ [(q3 + 48).toUInt8]
        writeBuf space (digits r3)

/-- `WriteInt32`, msgfmt/jsonfmt/encoder_int.go:114-123. -/
def writeInt32 (space : Bytes) (nval : Int32) : Bytes :=
  if nval < 0 then writeUint32 (space ++ [45]) (-nval).toUInt32
  else writeUint32 space nval.toUInt32

/-- `WriteUint64`, msgfmt/jsonfmt/encoder_int.go:160-214. -/
def writeUint64 (space : Bytes) (val : UInt64) : Bytes :=
  let q1 := val / 1000
  if q1 = 0 then writeFirstBuf space (digits val.toUInt32)
  else
    let r1 := val - q1 * 1000
    let q2 := q1 / 1000
    if q2 = 0 then
      let space := writeFirstBuf space (digits q1.toUInt32)
      let space := writeBuf space (digits r1.toUInt32)
      space
    else
      let r2 := q1 - q2 * 1000
      let q3 := q2 / 1000
      if q3 = 0 then
        let space := writeFirstBuf space (digits q2.toUInt32)
        let space := writeBuf space (digits r2.toUInt32)
        let space := writeBuf space (digits r1.toUInt32)
        space
      else
        let r3 := q2 - q3 * 1000
        let q4 := q3 / 1000
        if q4 = 0 then
          let space := writeFirstBuf space (digits q3.toUInt32)
          let space := writeBuf space (digits r3.toUInt32)
          let space := writeBuf space (digits r2.toUInt32)
          let space := writeBuf space (digits r1.toUInt32)
          space
        else
          let r4 := q3 - q4 * 1000
          let q5 := q4 / 1000
          if q5 = 0 then
            let space := writeFirstBuf space (digits q4.toUInt32)
            let space := writeBuf space (digits r4.toUInt32)
            let space := writeBuf space (digits r3.toUInt32)
            let space := writeBuf space (digits r2.toUInt32)
            let space := writeBuf space (digits r1.toUInt32)
            space
          else
            let r5 := q4 - q5 * 1000
            let q6 := q5 / 1000
            let space :=
              if q6 = 0 then writeFirstBuf space (digits q5.toUInt32)
              else
                let space := space ++ [(q6 + 48).toUInt8]
                let r6 := q5 - q6 * 1000
                writeBuf space (digits r6.toUInt32)
            let space := writeBuf space (digits r5.toUInt32)
            let space := writeBuf space (digits r4.toUInt32)
            let space := writeBuf space (digits r3.toUInt32)
            let space := writeBuf space (digits r2.toUInt32)
            let space := writeBuf space (digits r1.toUInt32)
            space

/-- `WriteInt64`, msgfmt/jsonfmt/encoder_int.go:149-158. -/
def writeInt64 (space : Bytes) (nval : Int64) : Bytes :=
  if nval < 0 then writeUint64 (space ++ [45]) (-nval).toUInt64
  else writeUint64 space nval.toUInt64

end Verif.Jsonfmt
