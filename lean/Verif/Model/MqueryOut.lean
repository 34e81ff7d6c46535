import Verif.Model.Mquery

/-!
# What `mquery` prints about the devices it found, `src/mquery.c:359-473`

Output is the bytes written to standard output.
-/

namespace Mdns.Mquery

open Mdns.CLib

/-- `printf("%-*s", w, s)`.  `src/mquery.c:396`, `416`, `423`, `465`. -/
def pad (w : Nat) (s : Bytes) : Bytes := s ++ List.replicate (w - s.length) 0x20

/-- The texts `NAME`, `ADDRESS` and `PRODUCT`.  `src/mquery.c:397`. -/
abbrev txtName : Bytes := [0x4E, 0x41, 0x4D, 0x45]
/-- See `txtName`, `src/mquery.c:397`. -/
abbrev txtAddress : Bytes := [0x41, 0x44, 0x44, 0x52, 0x45, 0x53, 0x53]
/-- See `txtName`, `src/mquery.c:397`. -/
abbrev txtProduct : Bytes := [0x50, 0x52, 0x4F, 0x44, 0x55, 0x43, 0x54]
/-- `\033[7m` and `\033[0m`.  `src/mquery.c:396`. -/
abbrev inverse : Bytes := [0x1B, 0x5B, 0x37, 0x6D]
/-- See `inverse`, `src/mquery.c:396`. -/
abbrev normal : Bytes := [0x1B, 0x5B, 0x30, 0x6D]

/-- `if (n > w) w = n`.  `src/mquery.c:375-389`. -/
def widen (w n : Nat) : Nat := if n > w then n else w

/-- The widths `name_w`, `addr_w` and `prod_w`.  `src/mquery.c:363`. -/
structure Widths where
  name : Nat := 4
  addr : Nat := 7
  prod : Nat := 7

/-- One pass of the first loop of `print_devices`, `src/mquery.c:366-391`. -/
def measure (detail : Option Bytes) (t : Tables) (w : Widths) (dev : Dev) : Widths :=
  if !matchesDetail detail dev then w
  else
    { name := widen w.name (shortname dev.hostname).length
      addr := dev.addrs.foldl (fun w a => widen w a.length) w.addr
      prod := t.instances.foldl (fun w i =>
        if i.hostname != dev.hostname || i.product.isEmpty then w else widen w i.product.length) w.prod }

/-- `src/mquery.c:363-393`. -/
def widths (detail : Option Bytes) (t : Tables) : Widths :=
  let w := t.devices.foldl (measure detail t) {}
  { w with name := w.name + 2, addr := w.addr + 2 }

/-- The product shown for a device, `src/mquery.c:401-413`. -/
def productOf (t : Tables) (dev : Dev) : Bytes :=
  match t.instances.find? fun i => i.hostname == dev.hostname && !i.product.isEmpty with
  | some i => strlcpy i.product 64
  | none => []

/-- The lines of a device, `src/mquery.c:415-423`. -/
def row (w : Widths) (t : Tables) (dev : Dev) : Bytes :=
  pad w.name (shortname dev.hostname) ++ [0x20] ++ pad w.addr (dev.addrs.head?.getD []) ++ [0x20] ++ productOf t dev ++ [0x0A] ++
    (dev.addrs.drop 1).flatMap fun a => pad w.name [] ++ [0x20] ++ a ++ [0x0A]

/-- `print_devices`, `src/mquery.c:359-425`. -/
def printDevices (detail : Option Bytes) (t : Tables) : Bytes :=
  let w := widths detail t
  inverse ++ pad w.name txtName ++ [0x20] ++ pad w.addr txtAddress ++ [0x20] ++ pad w.prod txtProduct ++ normal ++ [0x0A] ++
    t.devices.flatMap fun dev => if !matchesDetail detail dev then [] else row w t dev

/-- The type of service shown for an instance, `src/mquery.c:448-463`. -/
def svcText (iname : Bytes) : Bytes :=
  let svc := strlcpy (match iname.dropWhile (· != 0x2E) with
    | [] => iname
    | _ :: rest => rest) 256
  match svc.dropWhile (· != 0x2E) with
  | [] => svc
  | _ :: rest => svc.takeWhile (· != 0x2E) ++ [0x2E] ++ rest.takeWhile (· != 0x2E)

/-- The texts `Device:  `, `Address: `, `Services:`, ` port `, ` product=` and ` version=`.  `src/mquery.c:442-469`. -/
abbrev txtDevice : Bytes := [0x44, 0x65, 0x76, 0x69, 0x63, 0x65, 0x3A, 0x20, 0x20]
/-- See `txtDevice`, `src/mquery.c:444`. -/
abbrev txtAddr : Bytes := [0x41, 0x64, 0x64, 0x72, 0x65, 0x73, 0x73, 0x3A, 0x20]
/-- See `txtDevice`, `src/mquery.c:446`. -/
abbrev txtServices : Bytes := [0x53, 0x65, 0x72, 0x76, 0x69, 0x63, 0x65, 0x73, 0x3A]
/-- See `txtDevice`, `src/mquery.c:465`. -/
abbrev txtPort : Bytes := [0x20, 0x70, 0x6F, 0x72, 0x74, 0x20]
/-- See `txtDevice`, `src/mquery.c:467`. -/
abbrev txtProductIs : Bytes := [0x20, 0x70, 0x72, 0x6F, 0x64, 0x75, 0x63, 0x74, 0x3D]
/-- See `txtDevice`, `src/mquery.c:469`. -/
abbrev txtVersionIs : Bytes := [0x20, 0x76, 0x65, 0x72, 0x73, 0x69, 0x6F, 0x6E, 0x3D]

/-- The line of a service, `src/mquery.c:465-470`. -/
def service (i : Inst) : Bytes :=
  [0x20, 0x20] ++ pad 24 (svcText i.iname) ++ txtPort ++ pad 6 (decimal i.port) ++
    (if i.product.isEmpty then [] else txtProductIs ++ i.product) ++
    (if i.version.isEmpty then [] else txtVersionIs ++ i.version) ++ [0x0A]

/-- The lines of a device in detail, `src/mquery.c:441-471`. -/
def detailOf (t : Tables) (dev : Dev) : Bytes :=
  txtDevice ++ shortname dev.hostname ++ [0x0A] ++ (dev.addrs.flatMap fun a => txtAddr ++ a ++ [0x0A]) ++ txtServices ++ [0x0A] ++
    t.instances.flatMap fun i => if i.hostname != dev.hostname then [] else service i

/-- The loop of `print_device_detail`, `src/mquery.c:433-472`; `first` is the variable of that name. -/
def printDetails (detail : Option Bytes) (t : Tables) : Bool → List Dev → Bytes
  | _, [] => []
  | first, dev :: rest =>
    if !matchesDetail detail dev then printDetails detail t first rest
    else (if first then [] else [0x0A]) ++ detailOf t dev ++ printDetails detail t false rest

/-- `print_device_detail`, `src/mquery.c:427-473`. -/
def printDeviceDetail (detail : Option Bytes) (t : Tables) : Bytes := printDetails detail t true t.devices

end Mdns.Mquery
