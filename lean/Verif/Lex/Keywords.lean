/-!
The keywords of components/sql/parser/kwlist.h, in the order of the file, as bytes.
-/
namespace Verif.Lex

def keywordTable : List (List UInt8) := [
  [97, 98, 111, 114, 116], -- abort
  [97, 98, 115, 111, 108, 117, 116, 101], -- absolute
  [97, 99, 99, 101, 115, 115], -- access
  [97, 99, 116, 105, 111, 110], -- action
  [97, 99, 116, 105, 118, 101], -- active
  [97, 100, 100], -- add
  [97, 100, 109, 105, 110], -- admin
  [97, 102, 116, 101, 114], -- after
  [97, 103, 103, 114, 101, 103, 97, 116, 101], -- aggregate
  [97, 108, 108], -- all
  [97, 108, 115, 111], -- also
  [97, 108, 116, 101, 114], -- alter
  [97, 108, 119, 97, 121, 115], -- always
  [97, 110, 97, 108, 121, 115, 101], -- analyse
  [97, 110, 97, 108, 121, 122, 101], -- analyze
  [97, 110, 100], -- and
  [97, 110, 121], -- any
  [97, 114, 114, 97, 121], -- array
  [97, 115], -- as
  [97, 115, 99], -- asc
  [97, 115, 115, 101, 114, 116, 105, 111, 110], -- assertion
  [97, 115, 115, 105, 103, 110, 109, 101, 110, 116], -- assignment
  [97, 115, 121, 109, 109, 101, 116, 114, 105, 99], -- asymmetric
  [97, 116], -- at
  [97, 116, 116, 114, 105, 98, 117, 116, 101], -- attribute
  [97, 117, 116, 104, 111, 114, 105, 122, 97, 116, 105, 111, 110], -- authorization
  [98, 97, 99, 107, 119, 97, 114, 100], -- backward
  [98, 101, 102, 111, 114, 101], -- before
  [98, 101, 103, 105, 110], -- begin
  [98, 101, 116, 119, 101, 101, 110], -- between
  [98, 105, 103, 105, 110, 116], -- bigint
  [98, 105, 110, 97, 114, 121], -- binary
  [98, 105, 116], -- bit
  [98, 111, 111, 108, 101, 97, 110], -- boolean
  [98, 111, 116, 104], -- both
  [98, 121], -- by
  [99, 97, 99, 104, 101], -- cache
  [99, 97, 108, 108, 101, 100], -- called
  [99, 97, 115, 99, 97, 100, 101], -- cascade
  [99, 97, 115, 99, 97, 100, 101, 100], -- cascaded
  [99, 97, 115, 101], -- case
  [99, 97, 115, 116], -- cast
  [99, 97, 116, 97, 108, 111, 103], -- catalog
  [99, 104, 97, 105, 110], -- chain
  [99, 104, 97, 114], -- char
  [99, 104, 97, 114, 97, 99, 116, 101, 114], -- character
  [99, 104, 97, 114, 97, 99, 116, 101, 114, 105, 115, 116, 105, 99, 115], -- characteristics
  [99, 104, 101, 99, 107], -- check
  [99, 104, 101, 99, 107, 112, 111, 105, 110, 116], -- checkpoint
  [99, 108, 97, 115, 115], -- class
  [99, 108, 111, 115, 101], -- close
  [99, 108, 117, 115, 116, 101, 114], -- cluster
  [99, 111, 97, 108, 101, 115, 99, 101], -- coalesce
  [99, 111, 108, 108, 97, 116, 101], -- collate
  [99, 111, 108, 108, 97, 116, 105, 111, 110], -- collation
  [99, 111, 108, 117, 109, 110], -- column
  [99, 111, 109, 109, 101, 110, 116], -- comment
  [99, 111, 109, 109, 101, 110, 116, 115], -- comments
  [99, 111, 109, 109, 105, 116], -- commit
  [99, 111, 109, 109, 105, 116, 116, 101, 100], -- committed
  [99, 111, 110, 99, 117, 114, 114, 101, 110, 99, 121], -- concurrency
  [99, 111, 110, 99, 117, 114, 114, 101, 110, 116, 108, 121], -- concurrently
  [99, 111, 110, 102, 105, 103, 117, 114, 97, 116, 105, 111, 110], -- configuration
  [99, 111, 110, 110, 101, 99, 116, 105, 111, 110], -- connection
  [99, 111, 110, 115, 116, 114, 97, 105, 110, 116], -- constraint
  [99, 111, 110, 115, 116, 114, 97, 105, 110, 116, 115], -- constraints
  [99, 111, 110, 116, 97, 105, 110, 115], -- contains
  [99, 111, 110, 116, 101, 110, 116], -- content
  [99, 111, 110, 116, 105, 110, 117, 101], -- continue
  [99, 111, 110, 118, 101, 114, 115, 105, 111, 110], -- conversion
  [99, 111, 112, 121], -- copy
  [99, 111, 115, 116], -- cost
  [99, 112, 117, 95, 114, 97, 116, 101, 95, 108, 105, 109, 105, 116], -- cpu_rate_limit
  [99, 112, 117, 115, 101, 116], -- cpuset
  [99, 114, 101, 97, 116, 101], -- create
  [99, 114, 101, 97, 116, 101, 101, 120, 116, 116, 97, 98, 108, 101], -- createexttable
  [99, 114, 111, 115, 115], -- cross
  [99, 115, 118], -- csv
  [99, 117, 98, 101], -- cube
  [99, 117, 114, 114, 101, 110, 116], -- current
  [99, 117, 114, 114, 101, 110, 116, 95, 99, 97, 116, 97, 108, 111, 103], -- current_catalog
  [99, 117, 114, 114, 101, 110, 116, 95, 100, 97, 116, 101], -- current_date
  [99, 117, 114, 114, 101, 110, 116, 95, 114, 111, 108, 101], -- current_role
  [99, 117, 114, 114, 101, 110, 116, 95, 115, 99, 104, 101, 109, 97], -- current_schema
  [99, 117, 114, 114, 101, 110, 116, 95, 116, 105, 109, 101], -- current_time
  [99, 117, 114, 114, 101, 110, 116, 95, 116, 105, 109, 101, 115, 116, 97, 109, 112], -- current_timestamp
  [99, 117, 114, 114, 101, 110, 116, 95, 117, 115, 101, 114], -- current_user
  [99, 117, 114, 115, 111, 114], -- cursor
  [99, 121, 99, 108, 101], -- cycle
  [100, 97, 116, 97], -- data
  [100, 97, 116, 97, 98, 97, 115, 101], -- database
  [100, 97, 121], -- day
  [100, 101, 97, 108, 108, 111, 99, 97, 116, 101], -- deallocate
  [100, 101, 99], -- dec
  [100, 101, 99, 105, 109, 97, 108], -- decimal
  [100, 101, 99, 108, 97, 114, 101], -- declare
  [100, 101, 99, 111, 100, 101], -- decode
  [100, 101, 102, 97, 117, 108, 116], -- default
  [100, 101, 102, 97, 117, 108, 116, 115], -- defaults
  [100, 101, 102, 101, 114, 114, 97, 98, 108, 101], -- deferrable
  [100, 101, 102, 101, 114, 114, 101, 100], -- deferred
  [100, 101, 102, 105, 110, 101, 114], -- definer
  [100, 101, 108, 101, 116, 101], -- delete
  [100, 101, 108, 105, 109, 105, 116, 101, 114], -- delimiter
  [100, 101, 108, 105, 109, 105, 116, 101, 114, 115], -- delimiters
  [100, 101, 110, 121], -- deny
  [100, 101, 115, 99], -- desc
  [100, 105, 99, 116, 105, 111, 110, 97, 114, 121], -- dictionary
  [100, 105, 115, 97, 98, 108, 101], -- disable
  [100, 105, 115, 99, 97, 114, 100], -- discard
  [100, 105, 115, 116, 105, 110, 99, 116], -- distinct
  [100, 105, 115, 116, 114, 105, 98, 117, 116, 101, 100], -- distributed
  [100, 111], -- do
  [100, 111, 99, 117, 109, 101, 110, 116], -- document
  [100, 111, 109, 97, 105, 110], -- domain
  [100, 111, 117, 98, 108, 101], -- double
  [100, 114, 111, 112], -- drop
  [100, 120, 108], -- dxl
  [101, 97, 99, 104], -- each
  [101, 108, 115, 101], -- else
  [101, 110, 97, 98, 108, 101], -- enable
  [101, 110, 99, 111, 100, 105, 110, 103], -- encoding
  [101, 110, 99, 114, 121, 112, 116, 101, 100], -- encrypted
  [101, 110, 100], -- end
  [101, 110, 100, 112, 111, 105, 110, 116], -- endpoint
  [101, 110, 117, 109], -- enum
  [101, 114, 114, 111, 114, 115], -- errors
  [101, 115, 99, 97, 112, 101], -- escape
  [101, 118, 101, 110, 116], -- event
  [101, 118, 101, 114, 121], -- every
  [101, 120, 99, 101, 112, 116], -- except
  [101, 120, 99, 104, 97, 110, 103, 101], -- exchange
  [101, 120, 99, 108, 117, 100, 101], -- exclude
  [101, 120, 99, 108, 117, 100, 105, 110, 103], -- excluding
  [101, 120, 99, 108, 117, 115, 105, 118, 101], -- exclusive
  [101, 120, 101, 99, 117, 116, 101], -- execute
  [101, 120, 105, 115, 116, 115], -- exists
  [101, 120, 112, 97, 110, 100], -- expand
  [101, 120, 112, 108, 97, 105, 110], -- explain
  [101, 120, 116, 101, 110, 115, 105, 111, 110], -- extension
  [101, 120, 116, 101, 114, 110, 97, 108], -- external
  [101, 120, 116, 114, 97, 99, 116], -- extract
  [102, 97, 108, 115, 101], -- false
  [102, 97, 109, 105, 108, 121], -- family
  [102, 101, 116, 99, 104], -- fetch
  [102, 105, 101, 108, 100, 115], -- fields
  [102, 105, 108, 108], -- fill
  [102, 105, 108, 116, 101, 114], -- filter
  [102, 105, 114, 115, 116], -- first
  [102, 108, 111, 97, 116], -- float
  [102, 111, 108, 108, 111, 119, 105, 110, 103], -- following
  [102, 111, 114], -- for
  [102, 111, 114, 99, 101], -- force
  [102, 111, 114, 101, 105, 103, 110], -- foreign
  [102, 111, 114, 109, 97, 116], -- format
  [102, 111, 114, 119, 97, 114, 100], -- forward
  [102, 114, 101, 101, 122, 101], -- freeze
  [102, 114, 111, 109], -- from
  [102, 117, 108, 108], -- full
  [102, 117, 108, 108, 115, 99, 97, 110], -- fullscan
  [102, 117, 110, 99, 116, 105, 111, 110], -- function
  [102, 117, 110, 99, 116, 105, 111, 110, 115], -- functions
  [103, 108, 111, 98, 97, 108], -- global
  [103, 114, 97, 110, 116], -- grant
  [103, 114, 97, 110, 116, 101, 100], -- granted
  [103, 114, 101, 97, 116, 101, 115, 116], -- greatest
  [103, 114, 111, 117, 112], -- group
  [103, 114, 111, 117, 112, 95, 105, 100], -- group_id
  [103, 114, 111, 117, 112, 105, 110, 103], -- grouping
  [104, 97, 110, 100, 108, 101, 114], -- handler
  [104, 97, 115, 104], -- hash
  [104, 97, 118, 105, 110, 103], -- having
  [104, 101, 97, 100, 101, 114], -- header
  [104, 111, 108, 100], -- hold
  [104, 111, 115, 116], -- host
  [104, 111, 117, 114], -- hour
  [105, 100, 101, 110, 116, 105, 116, 121], -- identity
  [105, 102], -- if
  [105, 103, 110, 111, 114, 101], -- ignore
  [105, 108, 105, 107, 101], -- ilike
  [105, 109, 109, 101, 100, 105, 97, 116, 101], -- immediate
  [105, 109, 109, 117, 116, 97, 98, 108, 101], -- immutable
  [105, 109, 112, 108, 105, 99, 105, 116], -- implicit
  [105, 110], -- in
  [105, 110, 99, 108, 117, 100, 105, 110, 103], -- including
  [105, 110, 99, 108, 117, 115, 105, 118, 101], -- inclusive
  [105, 110, 99, 114, 101, 109, 101, 110, 116], -- increment
  [105, 110, 100, 101, 120], -- index
  [105, 110, 100, 101, 120, 101, 115], -- indexes
  [105, 110, 104, 101, 114, 105, 116], -- inherit
  [105, 110, 104, 101, 114, 105, 116, 115], -- inherits
  [105, 110, 105, 116, 105, 97, 108, 108, 121], -- initially
  [105, 110, 105, 116, 112, 108, 97, 110], -- initplan
  [105, 110, 108, 105, 110, 101], -- inline
  [105, 110, 110, 101, 114], -- inner
  [105, 110, 111, 117, 116], -- inout
  [105, 110, 112, 117, 116], -- input
  [105, 110, 115, 101, 110, 115, 105, 116, 105, 118, 101], -- insensitive
  [105, 110, 115, 101, 114, 116], -- insert
  [105, 110, 115, 116, 101, 97, 100], -- instead
  [105, 110, 116], -- int
  [105, 110, 116, 101, 103, 101, 114], -- integer
  [105, 110, 116, 101, 114, 115, 101, 99, 116], -- intersect
  [105, 110, 116, 101, 114, 118, 97, 108], -- interval
  [105, 110, 116, 111], -- into
  [105, 110, 118, 111, 107, 101, 114], -- invoker
  [105, 115], -- is
  [105, 115, 110, 117, 108, 108], -- isnull
  [105, 115, 111, 108, 97, 116, 105, 111, 110], -- isolation
  [106, 111, 105, 110], -- join
  [107, 101, 121], -- key
  [108, 97, 98, 101, 108], -- label
  [108, 97, 110, 103, 117, 97, 103, 101], -- language
  [108, 97, 114, 103, 101], -- large
  [108, 97, 115, 116], -- last
  [108, 97, 116, 101, 114, 97, 108], -- lateral
  [108, 99, 95, 99, 111, 108, 108, 97, 116, 101], -- lc_collate
  [108, 99, 95, 99, 116, 121, 112, 101], -- lc_ctype
  [108, 101, 97, 100, 105, 110, 103], -- leading
  [108, 101, 97, 107, 112, 114, 111, 111, 102], -- leakproof
  [108, 101, 97, 115, 116], -- least
  [108, 101, 102, 116], -- left
  [108, 101, 118, 101, 108], -- level
  [108, 105, 107, 101], -- like
  [108, 105, 109, 105, 116], -- limit
  [108, 105, 115, 116], -- list
  [108, 105, 115, 116, 101, 110], -- listen
  [108, 111, 97, 100], -- load
  [108, 111, 99, 97, 108], -- local
  [108, 111, 99, 97, 108, 116, 105, 109, 101], -- localtime
  [108, 111, 99, 97, 108, 116, 105, 109, 101, 115, 116, 97, 109, 112], -- localtimestamp
  [108, 111, 99, 97, 116, 105, 111, 110], -- location
  [108, 111, 99, 107], -- lock
  [108, 111, 103], -- log
  [109, 97, 112, 112, 105, 110, 103], -- mapping
  [109, 97, 115, 116, 101, 114], -- master
  [109, 97, 116, 99, 104], -- match
  [109, 97, 116, 101, 114, 105, 97, 108, 105, 122, 101, 100], -- materialized
  [109, 97, 120, 118, 97, 108, 117, 101], -- maxvalue
  [109, 101, 100, 105, 97, 110], -- median
  [109, 101, 109, 111, 114, 121, 95, 108, 105, 109, 105, 116], -- memory_limit
  [109, 101, 109, 111, 114, 121, 95, 115, 104, 97, 114, 101, 100, 95, 113, 117, 111, 116, 97], -- memory_shared_quota
  [109, 101, 109, 111, 114, 121, 95, 115, 112, 105, 108, 108, 95, 114, 97, 116, 105, 111], -- memory_spill_ratio
  [109, 105, 110, 117, 116, 101], -- minute
  [109, 105, 110, 118, 97, 108, 117, 101], -- minvalue
  [109, 105, 115, 115, 105, 110, 103], -- missing
  [109, 111, 100, 101], -- mode
  [109, 111, 100, 105, 102, 105, 101, 115], -- modifies
  [109, 111, 110, 116, 104], -- month
  [109, 111, 118, 101], -- move
  [110, 97, 109, 101], -- name
  [110, 97, 109, 101, 115], -- names
  [110, 97, 116, 105, 111, 110, 97, 108], -- national
  [110, 97, 116, 117, 114, 97, 108], -- natural
  [110, 99, 104, 97, 114], -- nchar
  [110, 101, 119, 108, 105, 110, 101], -- newline
  [110, 101, 120, 116], -- next
  [110, 111], -- no
  [110, 111, 99, 114, 101, 97, 116, 101, 101, 120, 116, 116, 97, 98, 108, 101], -- nocreateexttable
  [110, 111, 110, 101], -- none
  [110, 111, 111, 118, 101, 114, 99, 111, 109, 109, 105, 116], -- noovercommit
  [110, 111, 116], -- not
  [110, 111, 116, 104, 105, 110, 103], -- nothing
  [110, 111, 116, 105, 102, 121], -- notify
  [110, 111, 116, 110, 117, 108, 108], -- notnull
  [110, 111, 119, 97, 105, 116], -- nowait
  [110, 117, 108, 108], -- null
  [110, 117, 108, 108, 105, 102], -- nullif
  [110, 117, 108, 108, 115], -- nulls
  [110, 117, 109, 101, 114, 105, 99], -- numeric
  [111, 98, 106, 101, 99, 116], -- object
  [111, 102], -- of
  [111, 102, 102], -- off
  [111, 102, 102, 115, 101, 116], -- offset
  [111, 105, 100, 115], -- oids
  [111, 110], -- on
  [111, 110, 108, 121], -- only
  [111, 112, 101, 114, 97, 116, 111, 114], -- operator
  [111, 112, 116, 105, 111, 110], -- option
  [111, 112, 116, 105, 111, 110, 115], -- options
  [111, 114], -- or
  [111, 114, 100, 101, 114], -- order
  [111, 114, 100, 101, 114, 101, 100], -- ordered
  [111, 114, 100, 105, 110, 97, 108, 105, 116, 121], -- ordinality
  [111, 116, 104, 101, 114, 115], -- others
  [111, 117, 116], -- out
  [111, 117, 116, 101, 114], -- outer
  [111, 118, 101, 114], -- over
  [111, 118, 101, 114, 99, 111, 109, 109, 105, 116], -- overcommit
  [111, 118, 101, 114, 108, 97, 112, 115], -- overlaps
  [111, 118, 101, 114, 108, 97, 121], -- overlay
  [111, 119, 110, 101, 100], -- owned
  [111, 119, 110, 101, 114], -- owner
  [112, 97, 114, 97, 108, 108, 101, 108], -- parallel
  [112, 97, 114, 115, 101, 114], -- parser
  [112, 97, 114, 116, 105, 97, 108], -- partial
  [112, 97, 114, 116, 105, 116, 105, 111, 110], -- partition
  [112, 97, 114, 116, 105, 116, 105, 111, 110, 115], -- partitions
  [112, 97, 115, 115, 105, 110, 103], -- passing
  [112, 97, 115, 115, 119, 111, 114, 100], -- password
  [112, 101, 114, 99, 101, 110, 116], -- percent
  [112, 101, 114, 115, 105, 115, 116, 101, 110, 116, 108, 121], -- persistently
  [112, 108, 97, 99, 105, 110, 103], -- placing
  [112, 108, 97, 110, 115], -- plans
  [112, 111, 115, 105, 116, 105, 111, 110], -- position
  [112, 114, 101, 99, 101, 100, 105, 110, 103], -- preceding
  [112, 114, 101, 99, 105, 115, 105, 111, 110], -- precision
  [112, 114, 101, 112, 97, 114, 101], -- prepare
  [112, 114, 101, 112, 97, 114, 101, 100], -- prepared
  [112, 114, 101, 115, 101, 114, 118, 101], -- preserve
  [112, 114, 105, 109, 97, 114, 121], -- primary
  [112, 114, 105, 111, 114], -- prior
  [112, 114, 105, 118, 105, 108, 101, 103, 101, 115], -- privileges
  [112, 114, 111, 99, 101, 100, 117, 114, 97, 108], -- procedural
  [112, 114, 111, 99, 101, 100, 117, 114, 101], -- procedure
  [112, 114, 111, 103, 114, 97, 109], -- program
  [112, 114, 111, 116, 111, 99, 111, 108], -- protocol
  [113, 117, 101, 117, 101], -- queue
  [113, 117, 111, 116, 101], -- quote
  [114, 97, 110, 100, 111, 109, 108, 121], -- randomly
  [114, 97, 110, 103, 101], -- range
  [114, 101, 97, 100], -- read
  [114, 101, 97, 100, 97, 98, 108, 101], -- readable
  [114, 101, 97, 100, 115], -- reads
  [114, 101, 97, 108], -- real
  [114, 101, 97, 115, 115, 105, 103, 110], -- reassign
  [114, 101, 99, 104, 101, 99, 107], -- recheck
  [114, 101, 99, 117, 114, 115, 105, 118, 101], -- recursive
  [114, 101, 102], -- ref
  [114, 101, 102, 101, 114, 101, 110, 99, 101, 115], -- references
  [114, 101, 102, 114, 101, 115, 104], -- refresh
  [114, 101, 105, 110, 100, 101, 120], -- reindex
  [114, 101, 106, 101, 99, 116], -- reject
  [114, 101, 108, 97, 116, 105, 118, 101], -- relative
  [114, 101, 108, 101, 97, 115, 101], -- release
  [114, 101, 110, 97, 109, 101], -- rename
  [114, 101, 112, 101, 97, 116, 97, 98, 108, 101], -- repeatable
  [114, 101, 112, 108, 97, 99, 101], -- replace
  [114, 101, 112, 108, 105, 99, 97], -- replica
  [114, 101, 112, 108, 105, 99, 97, 116, 101, 100], -- replicated
  [114, 101, 115, 101, 116], -- reset
  [114, 101, 115, 111, 117, 114, 99, 101], -- resource
  [114, 101, 115, 116, 97, 114, 116], -- restart
  [114, 101, 115, 116, 114, 105, 99, 116], -- restrict
  [114, 101, 116, 114, 105, 101, 118, 101], -- retrieve
  [114, 101, 116, 117, 114, 110, 105, 110, 103], -- returning
  [114, 101, 116, 117, 114, 110, 115], -- returns
  [114, 101, 118, 111, 107, 101], -- revoke
  [114, 105, 103, 104, 116], -- right
  [114, 111, 108, 101], -- role
  [114, 111, 108, 108, 98, 97, 99, 107], -- rollback
  [114, 111, 108, 108, 117, 112], -- rollup
  [114, 111, 111, 116, 112, 97, 114, 116, 105, 116, 105, 111, 110], -- rootpartition
  [114, 111, 119], -- row
  [114, 111, 119, 115], -- rows
  [114, 117, 108, 101], -- rule
  [115, 97, 118, 101, 112, 111, 105, 110, 116], -- savepoint
  [115, 99, 97, 116, 116, 101, 114], -- scatter
  [115, 99, 104, 101, 109, 97], -- schema
  [115, 99, 114, 111, 108, 108], -- scroll
  [115, 101, 97, 114, 99, 104], -- search
  [115, 101, 99, 111, 110, 100], -- second
  [115, 101, 99, 117, 114, 105, 116, 121], -- security
  [115, 101, 103, 109, 101, 110, 116], -- segment
  [115, 101, 103, 109, 101, 110, 116, 115], -- segments
  [115, 101, 108, 101, 99, 116], -- select
  [115, 101, 113, 117, 101, 110, 99, 101], -- sequence
  [115, 101, 113, 117, 101, 110, 99, 101, 115], -- sequences
  [115, 101, 114, 105, 97, 108, 105, 122, 97, 98, 108, 101], -- serializable
  [115, 101, 114, 118, 101, 114], -- server
  [115, 101, 115, 115, 105, 111, 110], -- session
  [115, 101, 115, 115, 105, 111, 110, 95, 117, 115, 101, 114], -- session_user
  [115, 101, 116], -- set
  [115, 101, 116, 111, 102], -- setof
  [115, 101, 116, 115], -- sets
  [115, 104, 97, 114, 101], -- share
  [115, 104, 111, 119], -- show
  [115, 105, 109, 105, 108, 97, 114], -- similar
  [115, 105, 109, 112, 108, 101], -- simple
  [115, 109, 97, 108, 108, 105, 110, 116], -- smallint
  [115, 110, 97, 112, 115, 104, 111, 116], -- snapshot
  [115, 111, 109, 101], -- some
  [115, 112, 108, 105, 116], -- split
  [115, 113, 108], -- sql
  [115, 116, 97, 98, 108, 101], -- stable
  [115, 116, 97, 110, 100, 97, 108, 111, 110, 101], -- standalone
  [115, 116, 97, 114, 116], -- start
  [115, 116, 97, 116, 101, 109, 101, 110, 116], -- statement
  [115, 116, 97, 116, 105, 115, 116, 105, 99, 115], -- statistics
  [115, 116, 100, 105, 110], -- stdin
  [115, 116, 100, 111, 117, 116], -- stdout
  [115, 116, 111, 114, 97, 103, 101], -- storage
  [115, 116, 114, 105, 99, 116], -- strict
  [115, 116, 114, 105, 112], -- strip
  [115, 117, 98, 112, 97, 114, 116, 105, 116, 105, 111, 110], -- subpartition
  [115, 117, 98, 115, 116, 114, 105, 110, 103], -- substring
  [115, 121, 109, 109, 101, 116, 114, 105, 99], -- symmetric
  [115, 121, 115, 105, 100], -- sysid
  [115, 121, 115, 116, 101, 109], -- system
  [116, 97, 98, 108, 101], -- table
  [116, 97, 98, 108, 101, 115], -- tables
  [116, 97, 98, 108, 101, 115, 112, 97, 99, 101], -- tablespace
  [116, 101, 109, 112], -- temp
  [116, 101, 109, 112, 108, 97, 116, 101], -- template
  [116, 101, 109, 112, 111, 114, 97, 114, 121], -- temporary
  [116, 101, 120, 116], -- text
  [116, 104, 101, 110], -- then
  [116, 104, 114, 101, 115, 104, 111, 108, 100], -- threshold
  [116, 105, 101, 115], -- ties
  [116, 105, 109, 101], -- time
  [116, 105, 109, 101, 115, 116, 97, 109, 112], -- timestamp
  [116, 111], -- to
  [116, 114, 97, 105, 108, 105, 110, 103], -- trailing
  [116, 114, 97, 110, 115, 97, 99, 116, 105, 111, 110], -- transaction
  [116, 114, 101, 97, 116], -- treat
  [116, 114, 105, 103, 103, 101, 114], -- trigger
  [116, 114, 105, 109], -- trim
  [116, 114, 117, 101], -- true
  [116, 114, 117, 110, 99, 97, 116, 101], -- truncate
  [116, 114, 117, 115, 116, 101, 100], -- trusted
  [116, 121, 112, 101], -- type
  [116, 121, 112, 101, 115], -- types
  [117, 110, 98, 111, 117, 110, 100, 101, 100], -- unbounded
  [117, 110, 99, 111, 109, 109, 105, 116, 116, 101, 100], -- uncommitted
  [117, 110, 101, 110, 99, 114, 121, 112, 116, 101, 100], -- unencrypted
  [117, 110, 105, 111, 110], -- union
  [117, 110, 105, 113, 117, 101], -- unique
  [117, 110, 107, 110, 111, 119, 110], -- unknown
  [117, 110, 108, 105, 115, 116, 101, 110], -- unlisten
  [117, 110, 108, 111, 103, 103, 101, 100], -- unlogged
  [117, 110, 116, 105, 108], -- until
  [117, 112, 100, 97, 116, 101], -- update
  [117, 115, 101, 114], -- user
  [117, 115, 105, 110, 103], -- using
  [118, 97, 99, 117, 117, 109], -- vacuum
  [118, 97, 108, 105, 100], -- valid
  [118, 97, 108, 105, 100, 97, 116, 101], -- validate
  [118, 97, 108, 105, 100, 97, 116, 105, 111, 110], -- validation
  [118, 97, 108, 105, 100, 97, 116, 111, 114], -- validator
  [118, 97, 108, 117, 101], -- value
  [118, 97, 108, 117, 101, 115], -- values
  [118, 97, 114, 99, 104, 97, 114], -- varchar
  [118, 97, 114, 105, 97, 100, 105, 99], -- variadic
  [118, 97, 114, 121, 105, 110, 103], -- varying
  [118, 101, 114, 98, 111, 115, 101], -- verbose
  [118, 101, 114, 115, 105, 111, 110], -- version
  [118, 105, 101, 119], -- view
  [118, 105, 101, 119, 115], -- views
  [118, 111, 108, 97, 116, 105, 108, 101], -- volatile
  [119, 101, 98], -- web
  [119, 104, 101, 110], -- when
  [119, 104, 101, 114, 101], -- where
  [119, 104, 105, 116, 101, 115, 112, 97, 99, 101], -- whitespace
  [119, 105, 110, 100, 111, 119], -- window
  [119, 105, 116, 104], -- with
  [119, 105, 116, 104, 105, 110], -- within
  [119, 105, 116, 104, 111, 117, 116], -- without
  [119, 111, 114, 107], -- work
  [119, 114, 97, 112, 112, 101, 114], -- wrapper
  [119, 114, 105, 116, 97, 98, 108, 101], -- writable
  [119, 114, 105, 116, 101], -- write
  [120, 109, 108], -- xml
  [120, 109, 108, 97, 116, 116, 114, 105, 98, 117, 116, 101, 115], -- xmlattributes
  [120, 109, 108, 99, 111, 110, 99, 97, 116], -- xmlconcat
  [120, 109, 108, 101, 108, 101, 109, 101, 110, 116], -- xmlelement
  [120, 109, 108, 101, 120, 105, 115, 116, 115], -- xmlexists
  [120, 109, 108, 102, 111, 114, 101, 115, 116], -- xmlforest
  [120, 109, 108, 112, 97, 114, 115, 101], -- xmlparse
  [120, 109, 108, 112, 105], -- xmlpi
  [120, 109, 108, 114, 111, 111, 116], -- xmlroot
  [120, 109, 108, 115, 101, 114, 105, 97, 108, 105, 122, 101], -- xmlserialize
  [121, 101, 97, 114], -- year
  [121, 101, 115], -- yes
  [121, 101, 122, 122, 101, 121], -- yezzey
  [122, 111, 110, 101] -- zone
]

end Verif.Lex
