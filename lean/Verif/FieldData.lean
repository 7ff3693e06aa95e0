import Mathlib.Data.Nat.Notation

/-!
# The data of the field arithmetic

The constants that stand in the files of each prime: `fr.asm` for the C++ program in assembly, `fr-data.wat` for the WebAssembly
module, and the size of the memory the latter takes.  The files are copied into the program as they are.

Simplifications.
* Of `fr.asm` only the section `.data` is here (words of 64 bits); the flags of `Fr_q` and `Fr_R3` (`dd 0`, `dd 0x80000000`), which make them long
  numbers, are left out.
* A segment of `fr-data.wat` is its address and its bytes, with the escapes of the text resolved.  The line of `goldilocks` that is a
  comment is left out.
-/

namespace Verif.FieldData

/-- The section `.data` of a file `fr.asm`. -/
structure Asm where
  q : List Nat
  half : List Nat
  r2 : List Nat
  r3 : List Nat
  mask : Nat
  np : Nat

/-- code_producers/src/c_elements/bn128/fr.asm:8784-8793. -/
def asmBn128 : Asm where
  q := [0x43e1f593f0000001, 0x2833e84879b97091, 0xb85045b68181585d, 0x30644e72e131a029]
  half := [0xa1f0fac9f8000000, 0x9419f4243cdcb848, 0xdc2822db40c0ac2e, 0x183227397098d014]
  r2 := [0x1bb8e645ae216da7, 0x53fe3ab1e35c59e3, 0x8c49833d53bb8085, 0x0216d0b17f4e44a5]
  r3 := [0x5e94d8e1b4bf0040, 0x2a489cbe1cfbb6b8, 0x893cc664a19fcfed, 0x0cf8594b7fcc657c]
  mask := 0x3fffffffffffffff
  np := 0xc2e1f593efffffff

/-- code_producers/src/c_elements/bls12381/fr.asm:8784-8793. -/
def asmBls12381 : Asm where
  q := [0xffffffff00000001, 0x53bda402fffe5bfe, 0x3339d80809a1d805, 0x73eda753299d7d48]
  half := [0x7fffffff80000000, 0xa9ded2017fff2dff, 0x199cec0404d0ec02, 0x39f6d3a994cebea4]
  r2 := [0xc999e990f3f29c6d, 0x2b6cedcb87925c23, 0x05d314967254398f, 0x0748d9d99f59ff11]
  r3 := [0xc62c1807439b73af, 0x1b3e0d188cf06990, 0x73d13c71c7b5f418, 0x6e2a5bb9c8db33e9]
  mask := 0x7fffffffffffffff
  np := 0xfffffffeffffffff

/-- code_producers/src/c_elements/grumpkin/fr.asm:8784-8793. -/
def asmGrumpkin : Asm where
  q := [0x3c208c16d87cfd47, 0x97816a916871ca8d, 0xb85045b68181585d, 0x30644e72e131a029]
  half := [0x9e10460b6c3e7ea3, 0xcbc0b548b438e546, 0xdc2822db40c0ac2e, 0x183227397098d014]
  r2 := [0xf32cfc5b538afa89, 0xb5e71911d44501fb, 0x47ab1eff0a417ff6, 0x06d89f71cab8351f]
  r3 := [0xb1cd6dafda1530df, 0x62f210e6a7283db6, 0xef7f0b0c0ada0afb, 0x20fd6e902d592544]
  mask := 0x3fffffffffffffff
  np := 0x87d20782e4866389

/-- code_producers/src/c_elements/pallas/fr.asm:8784-8793. -/
def asmPallas : Asm where
  q := [0x992d30ed00000001, 0x224698fc094cf91b, 0x0000000000000000, 0x4000000000000000]
  half := [0xcc96987680000000, 0x11234c7e04a67c8d, 0x0000000000000000, 0x2000000000000000]
  r2 := [0x8c78ecb30000000f, 0xd7d30dbd8b0de0e7, 0x7797a99bc3c95d18, 0x096d41af7b9cb714]
  r3 := [0xf185a5993a9e10f9, 0xf6a68f3b6ac5b1d1, 0xdf8d1014353fd42c, 0x2ae309222d2d9910]
  mask := 0x7fffffffffffffff
  np := 0x992d30ecffffffff

/-- code_producers/src/c_elements/vesta/fr.asm:8784-8793. -/
def asmVesta : Asm where
  q := [0x8c46eb2100000001, 0x224698fc0994a8dd, 0x0000000000000000, 0x4000000000000000]
  half := [0xc623759080000000, 0x11234c7e04ca546e, 0x0000000000000000, 0x2000000000000000]
  r2 := [0xfc9678ff0000000f, 0x67bb433d891a16e3, 0x7fae231004ccf590, 0x096d41af7ccfdaa9]
  r3 := [0x008b421c249dae4c, 0xe13bda50dba41326, 0x88fececb8e15cb63, 0x07dd97a06e6792c8]
  mask := 0x7fffffffffffffff
  np := 0x8c46eb20ffffffff

/-- code_producers/src/c_elements/secq256r1/fr.asm:8867-8876. -/
def asmSecq256r1 : Asm where
  q := [0xffffffffffffffff, 0x00000000ffffffff, 0x0000000000000000, 0xffffffff00000001]
  half := [0xffffffffffffffff, 0x000000007fffffff, 0x8000000000000000, 0x7fffffff80000000]
  r2 := [0x0000000000000003, 0xfffffffbffffffff, 0xfffffffffffffffe, 0x00000004fffffffd]
  r3 := [0xfffffffd0000000a, 0xffffffedfffffff7, 0x00000005fffffffc, 0x0000001800000001]
  mask := 0xffffffffffffffff
  np := 0x0000000000000001

/-- code_producers/src/c_elements/bls12377/fr.asm:8784-8793. -/
def asmBls12377 : Asm where
  q := [0x0a11800000000001, 0x59aa76fed0000001, 0x60b44d1e5c37b001, 0x12ab655e9a2ca556]
  half := [0x8508c00000000000, 0xacd53b7f68000000, 0x305a268f2e1bd800, 0x0955b2af4d1652ab]
  r2 := [0x25d577bab861857b, 0xcc2c27b58860591f, 0xa7cc008fe5dc8593, 0x011fdae7eff1c939]
  r3 := [0x6a4295c90f65454c, 0x624d23ffae271699, 0xb1e55ef6f1c9d713, 0x0601dfa555c48dda]
  mask := 0x1fffffffffffffff
  np := 0x0a117fffffffffff

/-- code_producers/src/c_elements/c_code_generator.rs:1173-1200 `generate_fr_asm_file`: the file for a prime; for `goldilocks` there is none. -/
def asm (name : String) : Option Asm :=
  if name = "bn128" then some asmBn128
  else if name = "bls12381" then some asmBls12381
  else if name = "grumpkin" then some asmGrumpkin
  else if name = "pallas" then some asmPallas
  else if name = "vesta" then some asmVesta
  else if name = "secq256r1" then some asmSecq256r1
  else if name = "bls12377" then some asmBls12377
  else none

/-- code_producers/src/wasm_elements/bn128/fr-data.wat:1-15. -/
def watBn128 : List (Nat × List Nat) :=
  [(88, [254, 0, 0, 0, 0, 0, 0, 0]),
   (128, [1, 0, 0, 0, 0, 0, 0, 0, 0, 0, 0, 0, 0, 0, 0, 0, 0, 0, 0, 0, 0, 0, 0, 0, 0, 0, 0, 0, 0, 0, 0, 0]),
   (608, [1, 0, 0, 240, 147, 245, 225, 67, 145, 112, 185, 121, 72, 232, 51, 40, 93, 88, 129, 129, 182, 69, 80, 184, 41, 160, 49, 225, 114, 78, 100, 48]),
   (640, [251, 255, 255, 79, 28, 52, 150, 172, 41, 205, 96, 159, 149, 118, 252, 54, 46, 70, 121, 120, 111, 163, 110, 102, 47, 223, 7, 154, 193, 119, 10, 14]),
   (672, [167, 109, 33, 174, 69, 230, 184, 27, 227, 89, 92, 227, 177, 58, 254, 83, 133, 128, 187, 83, 61, 131, 73, 140, 165, 68, 78, 127, 177, 208, 22, 2]),
   (704, [64, 0, 191, 180, 225, 216, 148, 94, 184, 182, 251, 28, 190, 156, 72, 42, 237, 207, 159, 161, 100, 198, 60, 137, 124, 101, 204, 127, 75, 89, 248, 12]),
   (736, [251, 255, 255, 79, 28, 52, 150, 172, 41, 205, 96, 159, 149, 118, 252, 54, 46, 70, 121, 120, 111, 163, 110, 102, 47, 223, 7, 154, 193, 119, 10, 14]),
   (768, [0, 0, 0, 0, 0, 0, 0, 0, 0, 0, 0, 0, 0, 0, 0, 0, 0, 0, 0, 0, 0, 0, 0, 0, 0, 0, 0, 0, 0, 0, 0, 0]),
   (800, [0, 0, 0, 248, 201, 250, 240, 161, 72, 184, 220, 60, 36, 244, 25, 148, 46, 172, 192, 64, 219, 34, 40, 220, 20, 208, 152, 112, 57, 39, 50, 24]),
   (832, [1, 0, 0, 248, 201, 250, 240, 161, 72, 184, 220, 60, 36, 244, 25, 148, 46, 172, 192, 64, 219, 34, 40, 220, 20, 208, 152, 112, 57, 39, 50, 24]),
   (864, [230, 255, 255, 159, 249, 14, 13, 27, 63, 145, 42, 163, 163, 104, 186, 234, 137, 6, 221, 216, 118, 235, 216, 71, 195, 187, 245, 32, 85, 8, 208, 21]),
   (896, [63, 89, 31, 62, 20, 9, 151, 155, 135, 132, 62, 131, 210, 133, 21, 24, 104, 91, 4, 133, 155, 2, 26, 19, 46, 231, 68, 6, 3, 0, 0, 0]),
   (928, [156, 61, 209, 128, 85, 115, 110, 99, 214, 255, 69, 36, 116, 243, 43, 162, 216, 3, 178, 30, 192, 42, 69, 86, 231, 249, 99, 41, 148, 239, 96, 24]),
   (960, [160, 172, 15, 31, 138, 132, 203, 205, 67, 66, 159, 65, 233, 194, 10, 12, 180, 45, 130, 194, 77, 1, 141, 9, 151, 115, 34, 131, 1, 0, 0, 0]),
   (1920, [0, 0, 0, 248, 201, 250, 240, 161, 72, 184, 220, 60, 36, 244, 25, 148, 46, 172, 192, 64, 219, 34, 40, 220, 20, 208, 152, 112, 57, 39, 50, 24])]

/-- code_producers/src/wasm_elements/bls12381/fr-data.wat:1-15. -/
def watBls12381 : List (Nat × List Nat) :=
  [(88, [255, 0, 0, 0, 0, 0, 0, 0]),
   (128, [1, 0, 0, 0, 0, 0, 0, 0, 0, 0, 0, 0, 0, 0, 0, 0, 0, 0, 0, 0, 0, 0, 0, 0, 0, 0, 0, 0, 0, 0, 0, 0]),
   (608, [1, 0, 0, 0, 255, 255, 255, 255, 254, 91, 254, 255, 2, 164, 189, 83, 5, 216, 161, 9, 8, 216, 57, 51, 72, 125, 157, 41, 83, 167, 237, 115]),
   (640, [254, 255, 255, 255, 1, 0, 0, 0, 2, 72, 3, 0, 250, 183, 132, 88, 245, 79, 188, 236, 239, 79, 140, 153, 111, 5, 197, 172, 89, 177, 36, 24]),
   (672, [109, 156, 242, 243, 144, 233, 153, 201, 35, 92, 146, 135, 203, 237, 108, 43, 143, 57, 84, 114, 150, 20, 211, 5, 17, 255, 89, 159, 217, 217, 72, 7]),
   (704, [175, 115, 155, 67, 7, 24, 44, 198, 144, 105, 240, 140, 24, 13, 62, 27, 24, 244, 181, 199, 113, 60, 209, 115, 233, 51, 219, 200, 185, 91, 42, 110]),
   (736, [254, 255, 255, 255, 1, 0, 0, 0, 2, 72, 3, 0, 250, 183, 132, 88, 245, 79, 188, 236, 239, 79, 140, 153, 111, 5, 197, 172, 89, 177, 36, 24]),
   (768, [0, 0, 0, 0, 0, 0, 0, 0, 0, 0, 0, 0, 0, 0, 0, 0, 0, 0, 0, 0, 0, 0, 0, 0, 0, 0, 0, 0, 0, 0, 0, 0]),
   (800, [0, 0, 0, 128, 255, 255, 255, 127, 255, 45, 255, 127, 1, 210, 222, 169, 2, 236, 208, 4, 4, 236, 156, 25, 164, 190, 206, 148, 169, 211, 246, 57]),
   (832, [1, 0, 0, 128, 255, 255, 255, 127, 255, 45, 255, 127, 1, 210, 222, 169, 2, 236, 208, 4, 4, 236, 156, 25, 164, 190, 206, 148, 169, 211, 246, 57]),
   (864, [245, 255, 255, 255, 10, 0, 0, 0, 11, 12, 18, 0, 223, 243, 217, 102, 197, 183, 11, 150, 167, 183, 131, 204, 229, 157, 59, 54, 109, 207, 201, 4]),
   (896, [255, 255, 255, 255, 254, 91, 254, 255, 2, 164, 189, 83, 5, 216, 161, 9, 8, 216, 57, 51, 72, 125, 157, 41, 83, 167, 237, 115, 0, 0, 0, 0]),
   (928, [124, 244, 23, 12, 92, 109, 171, 156, 229, 113, 75, 253, 61, 233, 225, 28, 5, 213, 29, 71, 48, 178, 109, 13, 106, 59, 58, 116, 144, 233, 14, 63]),
   (960, [0, 0, 0, 128, 255, 45, 255, 127, 1, 210, 222, 169, 2, 236, 208, 4, 4, 236, 156, 25, 164, 190, 206, 148, 169, 211, 246, 57, 0, 0, 0, 0]),
   (1920, [0, 0, 0, 128, 255, 255, 255, 127, 255, 45, 255, 127, 1, 210, 222, 169, 2, 236, 208, 4, 4, 236, 156, 25, 164, 190, 206, 148, 169, 211, 246, 57])]

/-- code_producers/src/wasm_elements/goldilocks/fr-data.wat:2-16. -/
def watGoldilocks : List (Nat × List Nat) :=
  [(40, [64, 0, 0, 0, 0, 0, 0, 0]),
   (56, [1, 0, 0, 0, 0, 0, 0, 0]),
   (176, [1, 0, 0, 0, 255, 255, 255, 255]),
   (184, [255, 255, 255, 255, 0, 0, 0, 0]),
   (192, [1, 0, 0, 0, 254, 255, 255, 255]),
   (200, [1, 0, 0, 0, 0, 0, 0, 0]),
   (208, [255, 255, 255, 255, 0, 0, 0, 0]),
   (216, [0, 0, 0, 0, 0, 0, 0, 0]),
   (224, [0, 0, 0, 128, 255, 255, 255, 127]),
   (232, [1, 0, 0, 128, 255, 255, 255, 127]),
   (240, [249, 255, 255, 255, 6, 0, 0, 0]),
   (248, [255, 255, 255, 255, 0, 0, 0, 0]),
   (256, [152, 78, 81, 13, 139, 135, 88, 218]),
   (264, [0, 0, 0, 128, 0, 0, 0, 0]),
   (408, [0, 0, 0, 128, 255, 255, 255, 127])]

/-- code_producers/src/wasm_elements/grumpkin/fr-data.wat:1-15. -/
def watGrumpkin : List (Nat × List Nat) :=
  [(88, [254, 0, 0, 0, 0, 0, 0, 0]),
   (128, [1, 0, 0, 0, 0, 0, 0, 0, 0, 0, 0, 0, 0, 0, 0, 0, 0, 0, 0, 0, 0, 0, 0, 0, 0, 0, 0, 0, 0, 0, 0, 0]),
   (608, [71, 253, 124, 216, 22, 140, 32, 60, 141, 202, 113, 104, 145, 106, 129, 151, 93, 88, 129, 129, 182, 69, 80, 184, 41, 160, 49, 225, 114, 78, 100, 48]),
   (640, [157, 13, 143, 197, 141, 67, 93, 211, 61, 11, 199, 245, 40, 235, 120, 10, 44, 70, 121, 120, 111, 163, 110, 102, 47, 223, 7, 154, 193, 119, 10, 14]),
   (672, [137, 250, 138, 83, 91, 252, 44, 243, 251, 1, 69, 212, 17, 25, 231, 181, 246, 127, 65, 10, 255, 30, 171, 71, 31, 53, 184, 202, 113, 159, 216, 6]),
   (704, [223, 48, 21, 218, 175, 109, 205, 177, 182, 61, 40, 167, 230, 16, 242, 98, 251, 10, 218, 10, 12, 11, 127, 239, 68, 37, 89, 45, 144, 110, 253, 32]),
   (736, [157, 13, 143, 197, 141, 67, 93, 211, 61, 11, 199, 245, 40, 235, 120, 10, 44, 70, 121, 120, 111, 163, 110, 102, 47, 223, 7, 154, 193, 119, 10, 14]),
   (768, [0, 0, 0, 0, 0, 0, 0, 0, 0, 0, 0, 0, 0, 0, 0, 0, 0, 0, 0, 0, 0, 0, 0, 0, 0, 0, 0, 0, 0, 0, 0, 0]),
   (800, [163, 126, 62, 108, 11, 70, 16, 158, 70, 229, 56, 180, 72, 181, 192, 203, 46, 172, 192, 64, 219, 34, 40, 220, 20, 208, 152, 112, 57, 39, 50, 24]),
   (832, [164, 126, 62, 108, 11, 70, 16, 158, 70, 229, 56, 180, 72, 181, 192, 203, 46, 172, 192, 64, 219, 34, 40, 220, 20, 208, 152, 112, 57, 39, 50, 24]),
   (864, [215, 40, 173, 80, 169, 202, 23, 122, 185, 33, 85, 225, 122, 193, 106, 31, 132, 210, 107, 105, 78, 234, 75, 51, 142, 157, 23, 206, 68, 103, 31, 42]),
   (896, [163, 126, 62, 108, 11, 70, 16, 158, 70, 229, 56, 180, 72, 181, 192, 203, 46, 172, 192, 64, 219, 34, 40, 220, 20, 208, 152, 112, 57, 39, 50, 24]),
   (928, [170, 239, 237, 18, 137, 72, 195, 104, 79, 191, 170, 114, 104, 127, 8, 141, 49, 18, 8, 9, 71, 162, 225, 81, 250, 192, 41, 71, 177, 214, 89, 34]),
   (960, [82, 63, 31, 182, 5, 35, 8, 79, 163, 114, 28, 90, 164, 90, 224, 101, 23, 86, 96, 160, 109, 17, 20, 110, 10, 104, 76, 184, 156, 19, 25, 12]),
   (1920, [163, 126, 62, 108, 11, 70, 16, 158, 70, 229, 56, 180, 72, 181, 192, 203, 46, 172, 192, 64, 219, 34, 40, 220, 20, 208, 152, 112, 57, 39, 50, 24])]

/-- code_producers/src/wasm_elements/pallas/fr-data.wat:1-15. -/
def watPallas : List (Nat × List Nat) :=
  [(88, [255, 0, 0, 0, 0, 0, 0, 0]),
   (128, [1, 0, 0, 0, 0, 0, 0, 0, 0, 0, 0, 0, 0, 0, 0, 0, 0, 0, 0, 0, 0, 0, 0, 0, 0, 0, 0, 0, 0, 0, 0, 0]),
   (608, [1, 0, 0, 0, 237, 48, 45, 153, 27, 249, 76, 9, 252, 152, 70, 34, 0, 0, 0, 0, 0, 0, 0, 0, 0, 0, 0, 0, 0, 0, 0, 64]),
   (640, [253, 255, 255, 255, 56, 109, 120, 52, 173, 20, 25, 228, 11, 53, 44, 153, 255, 255, 255, 255, 255, 255, 255, 255, 255, 255, 255, 255, 255, 255, 255, 63]),
   (672, [15, 0, 0, 0, 179, 236, 120, 140, 231, 224, 13, 139, 189, 13, 211, 215, 24, 93, 201, 195, 155, 169, 151, 119, 20, 183, 156, 123, 175, 65, 109, 9]),
   (704, [249, 16, 158, 58, 153, 165, 133, 241, 209, 177, 197, 106, 59, 143, 166, 246, 44, 212, 63, 53, 20, 16, 141, 223, 16, 153, 45, 45, 34, 9, 227, 42]),
   (736, [253, 255, 255, 255, 56, 109, 120, 52, 173, 20, 25, 228, 11, 53, 44, 153, 255, 255, 255, 255, 255, 255, 255, 255, 255, 255, 255, 255, 255, 255, 255, 63]),
   (768, [0, 0, 0, 0, 0, 0, 0, 0, 0, 0, 0, 0, 0, 0, 0, 0, 0, 0, 0, 0, 0, 0, 0, 0, 0, 0, 0, 0, 0, 0, 0, 0]),
   (800, [0, 0, 0, 128, 118, 152, 150, 204, 141, 124, 166, 4, 126, 76, 35, 17, 0, 0, 0, 0, 0, 0, 0, 0, 0, 0, 0, 0, 0, 0, 0, 32]),
   (832, [1, 0, 0, 128, 118, 152, 150, 204, 141, 124, 166, 4, 126, 76, 35, 17, 0, 0, 0, 0, 0, 0, 0, 0, 0, 0, 0, 0, 0, 0, 0, 32]),
   (864, [237, 255, 255, 255, 104, 94, 165, 161, 243, 130, 73, 79, 75, 165, 194, 116, 253, 255, 255, 255, 255, 255, 255, 255, 255, 255, 255, 255, 255, 255, 255, 63]),
   (896, [237, 48, 45, 153, 27, 249, 76, 9, 252, 152, 70, 34, 0, 0, 0, 0, 0, 0, 0, 0, 0, 0, 0, 0, 0, 0, 0, 64, 0, 0, 0, 0]),
   (928, [240, 219, 214, 186, 73, 184, 141, 162, 223, 57, 181, 211, 3, 205, 131, 144, 142, 68, 200, 157, 202, 185, 166, 251, 218, 198, 137, 123, 116, 40, 201, 62]),
   (960, [119, 152, 150, 204, 141, 124, 166, 4, 126, 76, 35, 17, 0, 0, 0, 0, 0, 0, 0, 0, 0, 0, 0, 0, 0, 0, 0, 32, 0, 0, 0, 0]),
   (1920, [0, 0, 0, 128, 118, 152, 150, 204, 141, 124, 166, 4, 126, 76, 35, 17, 0, 0, 0, 0, 0, 0, 0, 0, 0, 0, 0, 0, 0, 0, 0, 32])]

/-- code_producers/src/wasm_elements/vesta/fr-data.wat:1-15. -/
def watVesta : List (Nat × List Nat) :=
  [(88, [255, 0, 0, 0, 0, 0, 0, 0]),
   (128, [1, 0, 0, 0, 0, 0, 0, 0, 0, 0, 0, 0, 0, 0, 0, 0, 0, 0, 0, 0, 0, 0, 0, 0, 0, 0, 0, 0, 0, 0, 0, 0]),
   (608, [1, 0, 0, 0, 33, 235, 70, 140, 221, 168, 148, 9, 252, 152, 70, 34, 0, 0, 0, 0, 0, 0, 0, 0, 0, 0, 0, 0, 0, 0, 0, 64]),
   (640, [253, 255, 255, 255, 156, 62, 43, 91, 103, 5, 66, 227, 11, 53, 44, 153, 255, 255, 255, 255, 255, 255, 255, 255, 255, 255, 255, 255, 255, 255, 255, 63]),
   (672, [15, 0, 0, 0, 255, 120, 150, 252, 227, 22, 26, 137, 61, 67, 187, 103, 144, 245, 204, 4, 16, 35, 174, 127, 169, 218, 207, 124, 175, 65, 109, 9]),
   (704, [76, 174, 157, 36, 28, 66, 139, 0, 38, 19, 164, 219, 80, 218, 59, 225, 99, 203, 21, 142, 203, 206, 254, 136, 200, 146, 103, 110, 160, 151, 221, 7]),
   (736, [253, 255, 255, 255, 156, 62, 43, 91, 103, 5, 66, 227, 11, 53, 44, 153, 255, 255, 255, 255, 255, 255, 255, 255, 255, 255, 255, 255, 255, 255, 255, 63]),
   (768, [0, 0, 0, 0, 0, 0, 0, 0, 0, 0, 0, 0, 0, 0, 0, 0, 0, 0, 0, 0, 0, 0, 0, 0, 0, 0, 0, 0, 0, 0, 0, 0]),
   (800, [0, 0, 0, 128, 144, 117, 35, 198, 110, 84, 202, 4, 126, 76, 35, 17, 0, 0, 0, 0, 0, 0, 0, 0, 0, 0, 0, 0, 0, 0, 0, 32]),
   (832, [1, 0, 0, 128, 144, 117, 35, 198, 110, 84, 202, 4, 126, 76, 35, 17, 0, 0, 0, 0, 0, 0, 0, 0, 0, 0, 0, 0, 0, 0, 0, 32]),
   (864, [237, 255, 255, 255, 140, 140, 188, 150, 142, 119, 247, 73, 75, 165, 194, 116, 253, 255, 255, 255, 255, 255, 255, 255, 255, 255, 255, 255, 255, 255, 255, 63]),
   (896, [33, 235, 70, 140, 221, 168, 148, 9, 252, 152, 70, 34, 0, 0, 0, 0, 0, 0, 0, 0, 0, 0, 0, 0, 0, 0, 0, 64, 0, 0, 0, 0]),
   (928, [222, 66, 153, 140, 66, 119, 128, 33, 148, 4, 182, 33, 137, 87, 73, 204, 226, 190, 239, 178, 39, 93, 46, 172, 86, 176, 45, 127, 137, 250, 121, 11]),
   (960, [145, 117, 35, 198, 110, 84, 202, 4, 126, 76, 35, 17, 0, 0, 0, 0, 0, 0, 0, 0, 0, 0, 0, 0, 0, 0, 0, 32, 0, 0, 0, 0]),
   (1920, [0, 0, 0, 128, 144, 117, 35, 198, 110, 84, 202, 4, 126, 76, 35, 17, 0, 0, 0, 0, 0, 0, 0, 0, 0, 0, 0, 0, 0, 0, 0, 32])]

/-- code_producers/src/wasm_elements/secq256r1/fr-data.wat:1-16. -/
def watSecq256r1 : List (Nat × List Nat) :=
  [(0, [160, 7, 0, 0]),
   (88, [0, 1, 0, 0, 0, 0, 0, 0]),
   (128, [1, 0, 0, 0, 0, 0, 0, 0, 0, 0, 0, 0, 0, 0, 0, 0, 0, 0, 0, 0, 0, 0, 0, 0, 0, 0, 0, 0, 0, 0, 0, 0]),
   (608, [255, 255, 255, 255, 255, 255, 255, 255, 255, 255, 255, 255, 0, 0, 0, 0, 0, 0, 0, 0, 0, 0, 0, 0, 1, 0, 0, 0, 255, 255, 255, 255]),
   (640, [1, 0, 0, 0, 0, 0, 0, 0, 0, 0, 0, 0, 255, 255, 255, 255, 255, 255, 255, 255, 255, 255, 255, 255, 254, 255, 255, 255, 0, 0, 0, 0]),
   (672, [3, 0, 0, 0, 0, 0, 0, 0, 255, 255, 255, 255, 251, 255, 255, 255, 254, 255, 255, 255, 255, 255, 255, 255, 253, 255, 255, 255, 4, 0, 0, 0]),
   (704, [10, 0, 0, 0, 253, 255, 255, 255, 247, 255, 255, 255, 237, 255, 255, 255, 252, 255, 255, 255, 5, 0, 0, 0, 1, 0, 0, 0, 24, 0, 0, 0]),
   (736, [1, 0, 0, 0, 0, 0, 0, 0, 0, 0, 0, 0, 255, 255, 255, 255, 255, 255, 255, 255, 255, 255, 255, 255, 254, 255, 255, 255, 0, 0, 0, 0]),
   (768, [0, 0, 0, 0, 0, 0, 0, 0, 0, 0, 0, 0, 0, 0, 0, 0, 0, 0, 0, 0, 0, 0, 0, 0, 0, 0, 0, 0, 0, 0, 0, 0]),
   (800, [255, 255, 255, 255, 255, 255, 255, 255, 255, 255, 255, 127, 0, 0, 0, 0, 0, 0, 0, 0, 0, 0, 0, 128, 0, 0, 0, 128, 255, 255, 255, 127]),
   (832, [0, 0, 0, 0, 0, 0, 0, 0, 0, 0, 0, 128, 0, 0, 0, 0, 0, 0, 0, 0, 0, 0, 0, 128, 0, 0, 0, 128, 255, 255, 255, 127]),
   (864, [3, 0, 0, 0, 0, 0, 0, 0, 0, 0, 0, 0, 253, 255, 255, 255, 255, 255, 255, 255, 255, 255, 255, 255, 252, 255, 255, 255, 2, 0, 0, 0]),
   (896, [255, 255, 255, 255, 255, 255, 255, 255, 255, 255, 255, 127, 0, 0, 0, 0, 0, 0, 0, 0, 0, 0, 0, 128, 0, 0, 0, 128, 255, 255, 255, 127]),
   (928, [254, 255, 255, 255, 255, 255, 255, 255, 255, 255, 255, 255, 1, 0, 0, 0, 0, 0, 0, 0, 0, 0, 0, 0, 2, 0, 0, 0, 254, 255, 255, 255]),
   (960, [0, 0, 0, 0, 0, 0, 0, 0, 0, 0, 0, 64, 0, 0, 0, 0, 0, 0, 0, 0, 0, 0, 0, 64, 0, 0, 0, 192, 255, 255, 255, 63]),
   (1920, [255, 255, 255, 255, 255, 255, 255, 255, 255, 255, 255, 127, 0, 0, 0, 0, 0, 0, 0, 0, 0, 0, 0, 128, 0, 0, 0, 128, 255, 255, 255, 127])]

/-- code_producers/src/wasm_elements/bls12377/fr-data.wat:1-16. -/
def watBls12377 : List (Nat × List Nat) :=
  [(0, [160, 7, 0, 0]),
   (88, [253, 0, 0, 0, 0, 0, 0, 0]),
   (128, [1, 0, 0, 0, 0, 0, 0, 0, 0, 0, 0, 0, 0, 0, 0, 0, 0, 0, 0, 0, 0, 0, 0, 0, 0, 0, 0, 0, 0, 0, 0, 0]),
   (608, [1, 0, 0, 0, 0, 128, 17, 10, 1, 0, 0, 208, 254, 118, 170, 89, 1, 176, 55, 92, 30, 77, 180, 96, 86, 165, 44, 154, 94, 101, 171, 18]),
   (640, [243, 255, 255, 255, 255, 127, 28, 125, 242, 255, 255, 111, 15, 245, 87, 114, 238, 15, 44, 81, 117, 21, 216, 22, 157, 154, 187, 43, 50, 218, 75, 13]),
   (672, [123, 133, 97, 184, 186, 119, 213, 37, 31, 89, 96, 136, 181, 39, 44, 204, 147, 133, 220, 229, 143, 0, 204, 167, 57, 201, 241, 239, 231, 218, 31, 1]),
   (704, [76, 69, 101, 15, 201, 149, 66, 106, 153, 22, 39, 174, 255, 35, 77, 98, 19, 215, 201, 241, 246, 94, 229, 177, 218, 141, 196, 85, 165, 223, 1, 6]),
   (736, [243, 255, 255, 255, 255, 127, 28, 125, 242, 255, 255, 111, 15, 245, 87, 114, 238, 15, 44, 81, 117, 21, 216, 22, 157, 154, 187, 43, 50, 218, 75, 13]),
   (768, [0, 0, 0, 0, 0, 0, 0, 0, 0, 0, 0, 0, 0, 0, 0, 0, 0, 0, 0, 0, 0, 0, 0, 0, 0, 0, 0, 0, 0, 0, 0, 0]),
   (800, [0, 0, 0, 0, 0, 192, 8, 133, 0, 0, 0, 104, 127, 59, 213, 172, 0, 216, 27, 46, 143, 38, 90, 48, 171, 82, 22, 77, 175, 178, 85, 9]),
   (832, [1, 0, 0, 0, 0, 192, 8, 133, 0, 0, 0, 104, 127, 59, 213, 172, 0, 216, 27, 46, 143, 38, 90, 48, 171, 82, 22, 77, 175, 178, 85, 9]),
   (864, [106, 255, 255, 255, 255, 255, 190, 25, 100, 255, 255, 31, 178, 70, 30, 118, 53, 223, 94, 247, 53, 208, 90, 86, 99, 31, 215, 169, 145, 154, 146, 15]),
   (896, [35, 20, 2, 0, 0, 160, 253, 237, 84, 179, 2, 96, 111, 184, 60, 154, 104, 193, 172, 74, 89, 52, 189, 202, 86, 37, 0, 0, 0, 0, 0, 0]),
   (928, [178, 31, 56, 57, 167, 60, 61, 60, 43, 119, 153, 236, 163, 205, 20, 154, 38, 72, 114, 89, 124, 204, 170, 215, 156, 52, 204, 197, 17, 162, 27, 13]),
   (960, [18, 10, 1, 0, 0, 208, 254, 118, 170, 89, 1, 176, 55, 92, 30, 77, 180, 96, 86, 165, 44, 154, 94, 101, 171, 18, 0, 0, 0, 0, 0, 0]),
   (1920, [0, 0, 0, 0, 0, 192, 8, 133, 0, 0, 0, 104, 127, 59, 213, 172, 0, 216, 27, 46, 143, 38, 90, 48, 171, 82, 22, 77, 175, 178, 85, 9])]

/-- code_producers/src/wasm_elements/wasm_code_generator.rs:1730-1747 `fr_data`. -/
def wat (name : String) : Option (List (Nat × List Nat)) :=
  if name = "bn128" then some watBn128
  else if name = "bls12381" then some watBls12381
  else if name = "goldilocks" then some watGoldilocks
  else if name = "grumpkin" then some watGrumpkin
  else if name = "pallas" then some watPallas
  else if name = "vesta" then some watVesta
  else if name = "secq256r1" then some watSecq256r1
  else if name = "bls12377" then some watBls12377
  else none

/-- compiler/src/circuit_design/build.rs:212-222: `fr_memory_size`. -/
def frSize (name : String) : Option Nat :=
  if name = "goldilocks" then some 412
  else if name = "bn128" ∨ name = "bls12381" ∨ name = "grumpkin" ∨ name = "pallas" ∨ name = "vesta" ∨ name = "secq256r1" ∨ name = "bls12377"
  then some 1948 else none

end Verif.FieldData
