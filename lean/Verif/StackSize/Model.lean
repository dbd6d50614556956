/-!
# Model of `thread_attributes::set_stack_size`

Models `/repo/include/boost/thread/pthread/thread_data.hpp` 53-66. `size_t` arithmetic is modulo `m` (2^64 or 2^32). The page size is what `sysconf` or
`getpagesize` returns; `min` is `PTHREAD_STACK_MIN`, where it is defined (0 stands for "not defined").
-/

namespace Verif.StackSize

/-- `set_stack_size` (53-66): the size handed to `pthread_attr_setstacksize`; `none` if it is not called. -/
def setStackSize (m page min size : Nat) : Option Nat :=
  if size = 0 then none
  else
    let size := if size < min then min else size
    some (((size + page + (m - 1)) % m / page) * page % m)

end Verif.StackSize
