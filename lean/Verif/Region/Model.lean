/-! # Update regions and block copies

`costmap_cspace/include/costmap_cspace/costmap_3d_layer/base.h` 49–250.  `int` is modelled by unbounded integers
(no overflow), `int8_t` cell values by integers, `ros::Time` by a natural number of nanoseconds (0 = unset). -/
namespace Verif.Region

/-- base.h 105–131: `UpdatedRegion`. -/
structure Region where
  x : Int
  y : Int
  yaw : Int
  width : Int
  height : Int
  angle : Int
  stamp : Nat
deriving Repr, DecidableEq

/-- base.h 109–118. -/
def Region.zero : Region := ⟨0, 0, 0, 0, 0, 0, 0⟩

/-- base.h 132–169. -/
def Region.merge (s r : Region) : Region :=
  if r.width = 0 ∨ r.height = 0 ∨ r.angle = 0 then s
  else
    let stamp := if r.stamp > s.stamp then r.stamp else s.stamp
    if s.width = 0 ∨ s.height = 0 ∨ s.angle = 0 then r
    else
      let x2 := s.x + s.width
      let y2 := s.y + s.height
      let yaw2 := s.yaw + s.angle
      let mx2 := r.x + r.width
      let my2 := r.y + r.height
      let myaw2 := r.yaw + r.angle
      let x := if r.x < s.x then r.x else s.x
      let y := if r.y < s.y then r.y else s.y
      let yaw := if r.yaw < s.yaw then r.yaw else s.yaw
      let x2 := if x2 < mx2 then mx2 else x2
      let y2 := if y2 < my2 then my2 else y2
      let yaw2 := if yaw2 < myaw2 then myaw2 else yaw2
      ⟨x, y, yaw, x2 - x, y2 - y, yaw2 - yaw, stamp⟩

/-- base.h 170–177; the assertion `ex >= 0` failing is `none`. -/
def Region.expand (s : Region) (ex : Int) : Option Region :=
  if ex ≥ 0 then some { s with x := s.x - ex, y := s.y - ex, width := s.width + 2 * ex, height := s.height + 2 * ex }
  else none

/-- base.h 178–215. -/
def Region.normalize (s : Region) (fullWidth fullHeight : Int) : Region :=
  let (ux, uw) := if s.x < 0 then (0, s.width + s.x) else (s.x, s.width)
  let (uy, uh) := if s.y < 0 then (0, s.height + s.y) else (s.y, s.height)
  let uw := if ux + uw > fullWidth then fullWidth - ux else uw
  let uh := if uy + uh > fullHeight then fullHeight - uy else uh
  let uw := if uw < 0 then 0 else uw
  let uh := if uh < 0 then 0 else uh
  { s with x := ux, y := uy, width := uw, height := uh }

/-- base.h 49–57: a configuration-space map, `info.width`, `info.height`, `info.angle` and `data`. -/
structure Map where
  w : Nat
  h : Nat
  ang : Nat
  data : List Int
deriving Repr, DecidableEq

/-- base.h 54–57. -/
def Map.address (m : Map) (x y yaw : Nat) : Nat := (yaw * m.h + y) * m.w + x

/-- base.h 58–79: `getCost`; `none` is a failing assertion or a read outside `data`. -/
def Map.getCost (m : Map) (x y yaw : Int) : Option Int :=
  if 0 ≤ yaw ∧ yaw < m.ang ∧ 0 ≤ x ∧ x < m.w ∧ 0 ≤ y ∧ y < m.h then
    m.data[m.address x.toNat y.toNat yaw.toNat]?
  else none

/-- `memcpy(dst + at, src + at, n)` (base.h 243–244): `none` when it leaves either buffer. -/
def memcpy (dst src : List Int) (pos n : Nat) : Option (List Int) :=
  if pos + n ≤ dst.length ∧ pos + n ≤ src.length then
    some (dst.take pos ++ ((src.drop pos).take n ++ dst.drop (pos + n)))
  else none

/-- base.h 238–247: the loop over the rows; both pointers advance by the common row length. -/
def blitRows (src : List Int) (stride n : Nat) : Nat → Nat → List Int → Option (List Int)
  | 0, _, dst => some dst
  | k + 1, pos, dst =>
    match memcpy dst src pos n with
    | none => none
    | some dst => blitRows src stride n k (pos + stride) dst

/-- base.h 229–248: the loop over the headings; `k` headings remain, `a` is the current one. -/
def blitAngles (r : Region) (src dest : Map) (n rows : Nat) : Nat → Nat → List Int → Option (List Int)
  | 0, _, dst => some dst
  | k + 1, a, dst =>
    match blitRows src.data src.w n rows (dest.address r.x.toNat r.y.toNat a) dst with
    | none => none
    | some dst => blitAngles r src dest n rows k (a + 1) dst

/-- base.h 216–249: copy the region from `src` to `dest`; also returns the clipped region.  `none` is a failing
assertion or an access outside a buffer.  A negative first heading would wrap around in `size_t` and end the loop at
once. -/
def bitblt (s : Region) (dest src : Map) : Option (Region × Map) :=
  if dest.ang = src.ang ∧ dest.w = src.w ∧ dest.h = src.h then
    let s := s.normalize src.w src.h
    if s.width = 0 ∨ s.height = 0 then some (s, dest)
    else
      let n := min s.width.toNat (src.w - s.x.toNat)
      let rows := min (s.y + s.height) src.h - s.y
      let angles := if s.yaw < 0 then 0 else min (s.yaw + s.angle) src.ang - s.yaw
      match blitAngles s src dest n rows.toNat angles.toNat s.yaw.toNat dest.data with
      | none => none
      | some d => some (s, { dest with data := d })
  else none

end Verif.Region
