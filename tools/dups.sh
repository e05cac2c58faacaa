#!/bin/sh
# Names declared in more than one module.
cd "$(dirname "$0")/../lean" || exit 1
grep -hoE "^(theorem|def|structure|inductive|abbrev|instance|lemma) [A-Za-z_.0-9']+" -r Verif | awk '{print $2}' | sort | uniq -d
